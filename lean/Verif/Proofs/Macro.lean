import Verif.Model.Macro
import Verif.Proofs.Convert

/-! # Lemmas about the macros -/

set_option autoImplicit false

namespace Meojson.Macro

/-- Where `N` points to for up to 64 arguments. -/
theorem argCount_le (as : List Arg) (h : as.length ≤ 64) : argCount as = some (.num as.length) := by
  unfold argCount
  have e : 65 = as.length + (64 - as.length) + 1 := by omega
  rw [e, List.getElem?_cons_succ, List.getElem?_append_right (by simp), List.length_map, Nat.add_sub_cancel_left, List.getElem?_map, List.getElem?_reverse (by simp; omega),
    List.length_range, List.getElem?_range (by omega)]
  simp only [Option.map_some, Option.some.injEq, Slot.num.injEq]
  omega

/-- For more, it points to one of them. -/
theorem argCount_gt (as : List Arg) (h : 64 < as.length) : ∃ a, argCount as = some (.arg a) := by
  unfold argCount
  rw [List.getElem?_cons_succ, List.getElem?_append_left (by simpa using h), List.getElem?_map, List.getElem?_eq_getElem h]
  exact ⟨_, rfl⟩

theorem forEach_all : ∀ (n : Nat) (as : List Arg), as.length = n + 1 → n + 1 ≤ 64 → forEach (n + 1) as = some (as.flatMap keyValue)
  | 0, [a], _, _ => by simp [forEach]
  | n + 1, a :: as, h, hn => by
    rw [forEach, if_neg (by omega)]
    simp only [forEach_all n as (by simpa using h) (by omega), Option.map_some, List.flatMap_cons]

theorem forEachOf_eq (as : List Arg) : forEachOf as = if 1 ≤ as.length ∧ as.length ≤ 64 then some (as.flatMap keyValue) else none := by
  unfold forEachOf
  by_cases h : as.length ≤ 64
  · rw [argCount_le as h]
    by_cases h1 : 1 ≤ as.length
    · rw [if_pos ⟨h1, h⟩]
      have := forEach_all (as.length - 1) as (by omega) (by omega)
      rwa [Nat.sub_add_cancel h1] at this
    · have : as.length = 0 := by omega
      simp [this, forEach]
  · obtain ⟨a, ha⟩ := argCount_gt as (by omega)
    rw [ha, if_neg (fun c => h c.2)]

/-- What the tags leave in the state. -/
def state : List Tag → NextState → NextState
  | [], st => st
  | .opt :: ts, st => state ts { st with isOptional := true }
  | .key k :: ts, st => state ts { st with overrideKey := some (cString k) }

theorem resolve_tags : ∀ (ts : List Tag) (n : Bytes) (rest : List Piece) (st : Option NextState),
    resolve ((ts.map Arg.tag ++ [Arg.name n]).flatMap keyValue ++ rest) st =
      (resolve rest none).map (⟨(state ts (st.getD {})).isOptional, (state ts (st.getD {})).keyFor n, n⟩ :: ·)
  | [], n, rest, st => by simp [keyValue, stringize, resolve, state]
  | .opt :: ts, n, rest, st => by
    have := resolve_tags ts n rest (some { st.getD {} with isOptional := true })
    simpa [keyValue, resolve, state] using this
  | .key k :: ts, n, rest, st => by
    have := resolve_tags ts n rest (some { st.getD {} with overrideKey := some (cString k) })
    simpa [keyValue, resolve, state] using this

theorem resolve_items : ∀ is : List Item,
    resolve ((vaArgs is).flatMap keyValue) none = some (is.map fun i => ⟨(state i.tags {}).isOptional, (state i.tags {}).keyFor i.name, i.name⟩)
  | [] => by simp [vaArgs, resolve]
  | i :: is => by
    have h := resolve_tags i.tags i.name ((vaArgs is).flatMap keyValue) none
    simp only [vaArgs, List.flatMap_cons, List.flatMap_append, Item.args] at h ⊢
    rw [h]
    have := resolve_items is
    simp only [vaArgs] at this
    rw [this]
    simp

/-- The same members as the model of the conversions has them. -/
def tagFields : List Tag → Fields → Fields
  | [], fs => fs
  | .opt :: ts, fs => .opt (tagFields ts fs)
  | .key k :: ts, fs => .key (cString k) (tagFields ts fs)

def fieldsOf (ty : Bytes → Ty) (init : Self) : List Item → Fields
  | [] => .done
  | i :: is => tagFields i.tags (.var i.name (init i.name) (ty i.name) (fieldsOf ty init is))

def accesses (is : List Item) : List Access := is.map fun i => ⟨(state i.tags {}).isOptional, (state i.tags {}).keyFor i.name, i.name⟩

section
variable (F : Floats)

theorem dump_tags (fs : Fields) (xs : List CVal) (m : List (Bytes × Value)) : ∀ (ts : List Tag) (st : NextState),
    (tagFields ts fs).dump F st xs m = fs.dump F (state ts st) xs m
  | [], _ => rfl
  | .opt :: ts, st => by rw [tagFields, Fields.dump, dump_tags fs xs m ts]; rfl
  | .key k :: ts, st => by rw [tagFields, Fields.dump, dump_tags fs xs m ts]; rfl

theorem check_tags (fs : Fields) (v : Value) : ∀ (ts : List Tag) (st : NextState), (tagFields ts fs).check F st v = fs.check F (state ts st) v
  | [], _ => rfl
  | .opt :: ts, st => by rw [tagFields, Fields.check, check_tags fs v ts]; rfl
  | .key k :: ts, st => by rw [tagFields, Fields.check, check_tags fs v ts]; rfl

theorem load_tags (fs : Fields) (v : Value) (dst : List CVal) : ∀ (ts : List Tag) (st : NextState),
    (tagFields ts fs).load F st v dst = fs.load F (state ts st) v dst
  | [], _ => rfl
  | .opt :: ts, st => by rw [tagFields, Fields.load, load_tags fs v dst ts]; rfl
  | .key k :: ts, st => by rw [tagFields, Fields.load, load_tags fs v dst ts]; rfl

variable (ty : Bytes → Ty) (init : Self)

theorem map_set (names : List Bytes) (n : Bytes) (h : n ∉ names) (self : Self) (x : CVal) : names.map (self.set n x) = names.map self :=
  List.map_congr_left fun k hk => if_neg (fun e : k = n => h (e ▸ hk))

/-- A function of the generated code leaves the members alone that are not listed. -/
theorem toJson_frame : ∀ (as : List Access) (self : Self) (m m' : List (Bytes × Value)) (self' : Self),
    toJson F ty as self m = .ok (m', self') → ∀ n, n ∉ as.map (·.name) → self' n = self n
  | [], self, m, m', self', h, n, _ => by rw [toJson] at h; cases h; rfl
  | a :: as, self, m, m', self', h, n, hn => by
    simp only [List.map_cons, List.mem_cons, not_or] at hn
    rw [toJson] at h
    split at h
    · rcases hr : Ty.jobject.store F .constLv (.jobject m) with r | e | _ <;> rw [hr] at h <;> simp only [Out.bind] at h
      · exact toJson_frame as _ _ _ _ h n hn.2
      · cases h
      · cases h
    · rcases hr : (ty a.name).store F .constLv (self a.name) with r | e | _ <;> rw [hr] at h <;> simp only [Out.bind] at h
      · rw [toJson_frame as _ _ _ _ h n hn.2]; exact if_neg hn.1
      · cases h
      · cases h

theorem dump_eq : ∀ (is : List Item) (self : Self) (m : List (Bytes × Value)), (is.map Item.name).Nodup → local_ ∉ is.map Item.name →
    (fieldsOf ty init is).dump F {} ((is.map Item.name).map self) m =
      (toJson F ty (accesses is) self m).bind fun r => .ok (r.1, (is.map Item.name).map r.2)
  | [], self, m, _, _ => rfl
  | i :: is, self, m, hd, hl => by
    simp only [List.map_cons, List.nodup_cons, List.mem_cons, not_or] at hd hl
    rw [fieldsOf, dump_tags]
    simp only [accesses, List.map_cons, toJson, if_neg (fun e => hl.1 e.symm : ¬ i.name = local_), Fields.dump]
    rcases hr : (ty i.name).store F .constLv (self i.name) with r | e | _ <;> simp only [Out.bind]
    have ih := dump_eq is (self.set i.name r.2) (RawObject.insertOrAssign ((state i.tags {}).keyFor i.name) r.1 m) hd.2 hl.2
    rw [map_set _ _ hd.1] at ih
    rw [ih]
    change (Out.bind (Out.bind _ _) _) = _
    simp only [accesses]
    rcases hs : toJson F ty _ _ _ with s | e | _ <;> simp only [Out.bind]
    have := toJson_frame F ty _ _ _ _ _ hs i.name (by simpa [Function.comp_def] using hd.1)
    simp [this, Self.set]

theorem check_eq : ∀ (is : List Item) (v : Value), v.Sound → (fieldsOf ty init is).check F {} v = checkJson F ty (accesses is) v
  | [], v, _ => rfl
  | i :: is, v, hv => by
    rw [fieldsOf, check_tags, accesses, List.map_cons, checkJson, Fields.check]
    obtain ⟨o, ho, _, _⟩ := findKey_step hv ((state i.tags {}).keyFor i.name)
    simp only [ho, Out.noexcept, Out.bind]
    have ih := check_eq is v hv
    rw [accesses] at ih
    cases o with
    | none => simp only [ih]
    | some w => simp only [ih]

theorem fromJson_frame : ∀ (as : List Access) (v : Value) (self : Self) (n : Bytes), n ∉ as.map (·.name) → (fromJson F ty as v self).2 n = self n
  | [], v, self, n, _ => rfl
  | a :: as, v, self, n, hn => by
    simp only [List.map_cons, List.mem_cons, not_or] at hn
    rw [fromJson]
    split
    · split
      · split
        · rw [fromJson_frame as v _ n hn.2]; exact if_neg hn.1
        · rfl
        · rfl
      · rfl
      · rfl
      · rfl
    · split
      · exact fromJson_frame as v self n hn.2
      · rfl
    · rfl
    · rfl

theorem load_eq : ∀ (is : List Item) (v : Value) (self : Self), (is.map Item.name).Nodup →
    (fieldsOf ty init is).load F {} v ((is.map Item.name).map self) =
      ((fromJson F ty (accesses is) v self).1, (is.map Item.name).map (fromJson F ty (accesses is) v self).2)
  | [], v, self, _ => rfl
  | i :: is, v, self, hd => by
    simp only [List.map_cons, List.nodup_cons] at hd
    have ih := load_eq is v
    have fr : ∀ s, (fromJson F ty (accesses is) v s).2 i.name = s i.name := fun s =>
      fromJson_frame F ty (accesses is) v s i.name (by simpa [accesses, Function.comp_def] using hd.1)
    rw [fieldsOf, load_tags, accesses, List.map_cons]
    simp only [List.map_cons, Fields.load, fromJson]
    rw [show (is.map fun i => (⟨(state i.tags {}).isOptional, (state i.tags {}).keyFor i.name, i.name⟩ : Access)) = accesses is from rfl]
    rcases hf : v.findKey ((state i.tags {}).keyFor i.name) with o | e | _
    · cases o with
      | none =>
        simp only
        cases (state i.tags {}).isOptional
        · rfl
        · simp only [if_true, ih self hd.2, fr]
      | some w =>
        simp only
        rcases hi : (ty i.name).is F w with b | e | _
        · cases b
          · rfl
          · simp only
            rcases ha : (ty i.name).as F w with x | e | _
            · have := ih (self.set i.name x) hd.2
              rw [map_set _ _ hd.1] at this
              simp only [this, fr, Self.set, if_true]
            · rfl
            · rfl
        · rfl
        · rfl
    · rfl
    · rfl

/-- `to_json` never looks at a member that the local variable hides. -/
theorem toJson_blind : ∀ (as : List Access) (self self' : Self) (m : List (Bytes × Value)), (∀ n, n ≠ local_ → self n = self' n) →
    (toJson F ty as self m).bind (fun r => .ok r.1) = (toJson F ty as self' m).bind (fun r => .ok r.1)
  | [], _, _, _, _ => rfl
  | a :: as, self, self', m, h => by
    rw [toJson, toJson]
    split
    · rcases Ty.jobject.store F .constLv (.jobject m) with r | e | _ <;> simp only [Out.bind]
      exact toJson_blind as self self' _ h
    · rename_i hn
      rw [h _ hn]
      rcases (ty a.name).store F .constLv (self' a.name) with r | e | _ <;> simp only [Out.bind]
      refine toJson_blind as _ _ _ fun n hl => ?_
      unfold Self.set
      split
      · rfl
      · exact h n hl

theorem toJson_append : ∀ (as bs : List Access) (self : Self) (m : List (Bytes × Value)),
    toJson F ty (as ++ bs) self m = (toJson F ty as self m).bind fun r => toJson F ty bs r.2 r.1
  | [], _, _, _ => rfl
  | a :: as, bs, self, m => by
    rw [List.cons_append, toJson, toJson]
    split
    · rcases Ty.jobject.store F .constLv (.jobject m) with r | e | _ <;> simp only [Out.bind]
      exact toJson_append as bs _ _
    · rcases (ty a.name).store F .constLv (self a.name) with r | e | _ <;> simp only [Out.bind]
      exact toJson_append as bs _ _
end

end Meojson.Macro
