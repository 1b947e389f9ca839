import Verif.Proofs.Macro
import Verif.Props.Convert

/-!
# C66: the macros cover every member they list

Between the list in `MEO_JSONIZATION(...)` and the functions that convert the members there are a preprocessor program (jsonization.hpp:204-472) and a recursion over
overloads (47-196). What comes out of them for any list; and the one name a member must not have.
-/

set_option autoImplicit false

namespace Meojson.Macro

/-- What a C string literal stands for: the text up to the first null byte. -/
def literal : Bytes → Bytes
  | [] => []
  | c :: k => if c = 0x00 then [] else c :: literal k

private theorem literal_eq : ∀ k : Bytes, cString k = literal k
  | [] => rfl
  | c :: k => by
    have ih := literal_eq k
    unfold cString at ih ⊢
    by_cases h : c = 0
    · simp [literal, h]
    · simpa [literal, h] using ih

/-- What the user means by a list entry: optional if there is a `MEO_OPT`; under the key of the last `MEO_KEY`, or else under its own name. -/
def wanted (i : Item) : Access :=
  { optional := decide (Tag.opt ∈ i.tags)
    key := (i.tags.reverse.findSome? fun | .key k => some (literal k) | .opt => none).getD i.name
    name := i.name }

private theorem state_optional : ∀ (ts : List Tag) (st : NextState), (state ts st).isOptional = (st.isOptional || decide (Tag.opt ∈ ts))
  | [], st => by simp [state]
  | .opt :: ts, st => by simp [state, state_optional ts]
  | .key k :: ts, st => by simp [state, state_optional ts]

private theorem state_key : ∀ (ts : List Tag) (st : NextState),
    (state ts st).overrideKey = (ts.reverse.findSome? fun | .key k => some (cString k) | .opt => none).or st.overrideKey
  | [], st => by simp [state]
  | .opt :: ts, st => by simp [state, state_key ts, List.findSome?_append]
  | .key k :: ts, st => by simp [state, state_key ts, List.findSome?_append]

private theorem accesses_eq (is : List Item) : accesses is = is.map wanted := by
  refine List.map_congr_left fun i _ => ?_
  have e : (fun | .key k => some (cString k) | .opt => none : Tag → Option Bytes) = fun | .key k => some (literal k) | .opt => none := by
    funext t; cases t <;> simp [literal_eq]
  simp only [wanted, NextState.keyFor, state_optional, state_key, e]
  simp

private theorem vaArgs_length (is : List Item) : (vaArgs is).length = (is.map fun i => i.tags.length + 1).sum := by
  simp [vaArgs, List.length_flatMap, Item.args]

/-- A list compiles exactly if it has at least one entry and its members and tags are no more than 64 together. Then the generated functions visit exactly the listed
members, in the order of the list, each as it was meant. -/
theorem C66_members (is : List Item) :
    compile is = if 1 ≤ (is.map fun i => i.tags.length + 1).sum ∧ (is.map fun i => i.tags.length + 1).sum ≤ 64 then some (is.map wanted) else none := by
  unfold compile
  rw [forEachOf_eq, vaArgs_length]
  split
  · rw [Option.bind_some, resolve_items, ← accesses_eq]; rfl
  · rfl

/-- 64 members are allowed, 32 optional ones too; 33 optional ones are not. -/
example (n : Nat) (hn : 1 ≤ n) (h : n ≤ 64) : compile (List.replicate n ⟨[], ascii "a"⟩) = some (List.replicate n ⟨false, ascii "a", ascii "a"⟩) := by
  rw [C66_members, if_pos (by simp; omega)]; simp [wanted]
example : (compile (List.replicate 32 ⟨[.opt], ascii "a"⟩)).isSome ∧ compile (List.replicate 33 ⟨[.opt], ascii "a"⟩) = none ∧
    compile (List.replicate 65 ⟨[], ascii "a"⟩) = none ∧ compile [] = none := by decide +kernel
example : compile [⟨[], ascii "a"⟩, ⟨[.opt], ascii "b"⟩, ⟨[.key (ascii "x"), .opt, .key (ascii "y")], ascii "c"⟩] =
    some [⟨false, ascii "a", ascii "a"⟩, ⟨true, ascii "b", ascii "b"⟩, ⟨true, ascii "y", ascii "c"⟩] := by decide +kernel

/-- If no member is listed twice and none is called `result`, the three functions are those of the type `struct` of the conversions (C28 to C31, C51): the list as it was
written, with the members' types and initial values. `check_json` and `from_json` do not mind the name `result`. -/
theorem C66_functions_partial (F : Floats) (ty : Bytes → Ty) (init : Self) (is : List Item) (as : List Access) (h : compile is = some as) (hd : (is.map Item.name).Nodup)
    (self : Self) :
    (ascii "result" ∉ is.map Item.name → ∀ m,
      (fieldsOf ty init is).dump F {} ((is.map Item.name).map self) m = (toJson F ty as self m).bind fun r => .ok (r.1, (is.map Item.name).map r.2)) ∧
    (∀ v : Value, v.Sound → (fieldsOf ty init is).check F {} v = checkJson F ty as v) ∧
    (∀ v : Value, (fieldsOf ty init is).load F {} v ((is.map Item.name).map self) =
      ((fromJson F ty as v self).1, (is.map Item.name).map (fromJson F ty as v self).2)) := by
  have e : as = accesses is := by
    rw [C66_members] at h
    split at h
    · rw [accesses_eq]; exact (Option.some.inj h).symm
    · cases h
  subst e
  exact ⟨fun hl m => dump_eq F ty init is self m hd hl, fun v hv => check_eq F ty init is v hv, fun v => load_eq F ty init is v self hd⟩

/-- The members not listed keep their values. -/
theorem C66_unlisted (F : Floats) (ty : Bytes → Ty) (is : List Item) (as : List Access) (h : compile is = some as) (self : Self) (n : Bytes) (hn : n ∉ is.map Item.name) :
    (∀ m r, toJson F ty as self m = .ok r → r.2 n = self n) ∧ ∀ v, (fromJson F ty as v self).2 n = self n := by
  have e : as.map (·.name) = is.map Item.name := by
    rw [C66_members] at h
    split at h
    · rw [← Option.some.inj h]; simp [wanted, Function.comp_def]
    · cases h
  exact ⟨fun m r hr => toJson_frame F ty as self m r.1 r.2 hr n (e ▸ hn), fun v => fromJson_frame F ty as v self n (e ▸ hn)⟩

/-- The key given with `MEO_KEY` is used as it is written, up to a NUL in it. -/
theorem C66_key (k rest : Bytes) (hk : (0 : UInt8) ∉ k) (n : Bytes) :
    compile [⟨[.key k], n⟩] = some [⟨false, k, n⟩] ∧ compile [⟨[.key (k ++ 0 :: rest)], n⟩] = some [⟨false, k, n⟩] := by
  have h1 : cString k = k := by
    have := List.takeWhile_append_of_pos (p := fun b : UInt8 => decide (b ≠ 0)) (l₁ := k) (l₂ := []) fun b hb => by simpa using fun e : b = 0 => hk (e ▸ hb)
    simpa [cString] using this
  have h2 : cString (k ++ 0 :: rest) = k := by
    unfold cString
    rw [List.takeWhile_append_of_pos fun b hb => by simpa using fun e : b = 0 => hk (e ▸ hb)]
    simp
  rw [C66_members, C66_members]
  simp [wanted, ← literal_eq, h1, h2]

example : (0 : UInt8) ∉ ascii "a key" := by decide

/-- The claim: in what `to_json` makes of an object, there is under the key of each member what the member converts to. -/
def C66Claim : Prop := ∀ (F : Floats) (ty : Bytes → Ty) (is : List Item) (as : List Access) (self self' : Self) (m : List (Bytes × Value)),
  compile is = some as → (as.map (·.key)).Nodup → (is.map Item.name).Nodup → toJson F ty as self [] = .ok (m, self') →
  ∀ a ∈ as, ∀ r, (ty a.name).store F .constLv (self a.name) = .ok r → (a.key, r.1) ∈ m

/-- The local variable of the generated `to_json` is called `result` (jsonization.hpp:431) and hides a member of that name: the object built so far is stored instead. -/
theorem C66_refuted : ¬ C66Claim := by
  intro h
  have := h Samples.noFloats (fun _ => .int cInt) [⟨[], ascii "result"⟩] [⟨false, ascii "result", ascii "result"⟩] (fun _ => .int 5) (fun _ => .int 5)
    [(ascii "result", .ofObject [])] rfl (by simp) (by simp) rfl ⟨false, ascii "result", ascii "result"⟩ (by simp) (.ofInt 5, .int 5) rfl
  rw [List.mem_singleton, Prod.mk.injEq] at this
  exact absurd this.2 (by simp [Value.ofInt, Value.ofObject])

/-- What is stored for such a member, wherever it stands: the object made of the members before it. -/
theorem C66_hidden (F : Floats) (ty : Bytes → Ty) (as bs : List Access) (o : Bool) (k : Bytes) (self : Self) (m : List (Bytes × Value)) (self' : Self)
    (h : toJson F ty as self [] = .ok (m, self')) (hm : Value.intactMembers m = true) :
    toJson F ty (as ++ ⟨o, k, ascii "result"⟩ :: bs) self [] = toJson F ty bs self' (RawObject.insertOrAssign k (.ofObject m) m) := by
  have hc : ∀ ms : List (Bytes × Value), Value.intactMembers ms = true → eachOf (fun e : Bytes × Value => e.2.copied.bind fun w => .ok (e.1, w)) ms = .ok ms := by
    intro ms
    induction ms with
    | nil => intro _; rfl
    | cons e ms ih =>
      intro hms
      obtain ⟨k, v⟩ := e
      simp only [Value.intactMembers, Bool.and_eq_true] at hms
      rw [eachOf, ih hms.2]; simp [Value.copied, hms.1]
  rw [toJson_append, h]
  change toJson F ty _ self' m = _
  rw [toJson, if_pos (show ascii "result" = local_ from rfl)]
  simp [Ty.store, hc m hm]

/-- Its own value is not in the result: objects that differ in it only give the same JSON. Nothing can restore it. -/
theorem C66_lost (F : Floats) (ty : Bytes → Ty) (as : List Access) (self self' : Self) (h : ∀ n, n ≠ ascii "result" → self n = self' n) :
    (toJson F ty as self []).bind (fun r => .ok r.1) = (toJson F ty as self' []).bind (fun r => .ok r.1) := toJson_blind F ty as self self' [] h

/-- `struct { int a = 1; int result = 5; MEO_JSONIZATION(a, result) }`: written as `{"a":1,"result":{"a":1}}`, which its own `from_json` refuses. -/
example : (compile [⟨[], ascii "a"⟩, ⟨[], ascii "result"⟩]).map (fun as =>
      ((toJson Samples.noFloats (fun _ => .int cInt) as (fun n => if n = ascii "a" then .int 1 else .int 5) []).bind fun r => .ok r.1,
       (fromJson Samples.noFloats (fun _ => .int cInt) as
        (.ofObject [(ascii "a", .ofInt 1), (ascii "result", .ofObject [(ascii "a", .ofInt 1)])]) (fun _ => .int 0)).1)) =
    some (.ok [(ascii "a", .ofInt 1), (ascii "result", .ofObject [(ascii "a", .ofInt 1)])], .ok (some (ascii "result"))) := by rfl
/-- A `MEO_KEY` does not help; an innocent list does what it should. -/
example : (compile [⟨[.key (ascii "k")], ascii "result"⟩]).map (fun as =>
      (toJson Samples.noFloats (fun _ => .int cInt) as (fun _ => .int 5) []).bind fun r => .ok r.1) = some (.ok [(ascii "k", .ofObject [])]) := by rfl
example : (compile [⟨[], ascii "b"⟩, ⟨[.key (ascii "a\x00z")], ascii "c"⟩]).map (fun as =>
      (toJson Samples.noFloats (fun _ => .int cInt) as (fun _ => .int 5) []).bind fun r => .ok r.1) =
    some (.ok [(ascii "a", .ofInt 5), (ascii "b", .ofInt 5)]) := by rfl

end Meojson.Macro
