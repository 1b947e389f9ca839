import Verif.Model.Message
import Verif.Props.Report
import Verif.Proofs.Convert

/-! The conversions with texts are the conversions of Model/Convert.lean. -/

set_option autoImplicit false

namespace Meojson
open Value

theorem plain_bind {α β : Type} (r : Told α) (f : α → Told β) : (r.bind f).plain = r.plain.bind fun a => (f a).plain := by cases r <;> rfl

theorem plain_lift {α : Type} (r : Out α) : (Told.lift r).plain = r := by cases r <;> rfl

theorem plain_complain {α : Type} (c : Compiler) (text : Bytes) (v : Value) : (v.complain c text : Told α).plain = v.typeError := by
  obtain ⟨h1, -, h3⟩ := C59_defined c v
  unfold complain typeError
  rcases h1 with ⟨t, h⟩ | h
  · rw [h] at h3 ⊢
    have : v.valueInfo = .ok () := by
      revert h3
      cases v with
      | str ty s => intro _; rfl
      | arr ty s => intro _; rfl
      | obj ty s => intro _; rfl
      | arrNull ty => cases ty <;> simp [valueInfo]
      | objNull ty => cases ty <;> simp [valueInfo]
    rw [this]
    rfl
  · rw [h, h3.1 h]
    rfl

theorem plain_each {α β : Type} {f : α → Told β} {g : α → Out β} : ∀ {vs : List α}, (∀ v ∈ vs, (f v).plain = g v) → (eachTold f vs).plain = eachOf g vs
  | [], _ => rfl
  | v :: vs, h => by
    have ih : (eachTold f vs).plain = eachOf g vs := plain_each fun w hw => h w (by simp [hw])
    simp only [eachTold, eachOf, plain_bind, h v (by simp), ih]
    rfl

theorem plain_ite {α : Type} (p : Prop) [Decidable p] (a b : Told α) : (if p then a else b).plain = if p then a.plain else b.plain := by split <;> rfl

section
variable (F : Floats) (c : Compiler) (N : Names)

theorem plain_boolean (v : Value) : (v.asBooleanT c).plain = v.asBoolean := by
  unfold asBooleanT asBoolean
  simp only [plain_ite, plain_bind, plain_lift, plain_complain]
  rfl

theorem plain_int (T : IntTy) (v : Value) : (v.asIntT c N T).plain = v.asInt T := by
  unfold asIntT asInt
  simp only [plain_ite, plain_bind, plain_lift, plain_complain]
  congr 2
  funext s
  cases tryParseInteger T s <;> rfl

theorem plain_float (f : FloatFmt) (v : Value) : (v.asFloatT c N F f).plain = v.asFloat F f := by
  unfold asFloatT asFloat
  simp only [plain_ite, plain_bind, plain_lift, plain_complain]
  congr 2
  funext s
  cases F.read f s <;> rfl

theorem plain_string (v : Value) : (v.asStringT c).plain = v.asString := by simp only [asStringT, asString, plain_ite, plain_lift, plain_complain]

theorem plain_view (v : Value) : (v.asStringViewT c).plain = v.asString := by simp only [asStringViewT, asString, plain_ite, plain_lift, plain_complain]

theorem plain_array (v : Value) : (v.asArrayT c).plain = v.asArray := by
  unfold asArrayT
  simp only [plain_ite, plain_lift, plain_complain]
  unfold asArray
  split <;> rfl

theorem plain_object (v : Value) : (v.asObjectT c).plain = v.asObject := by
  unfold asObjectT
  simp only [plain_ite, plain_lift, plain_complain]
  unfold asObject
  split <;> rfl

theorem plain_null (v : Value) : (v.asMonostateT c).plain = v.asNull := by
  unfold asMonostateT asNull
  simp only [plain_ite, plain_complain]
  rfl

theorem plain_nullptr (v : Value) : (v.asNullptrT c).plain = v.asNull := by
  unfold asNullptrT asNull
  simp only [plain_ite, plain_complain]
  rfl

theorem plain_enum (E : EnumTy) (v : Value) : (v.asEnumT c N E).plain = v.asEnum E := by
  unfold asEnumT asEnum
  simp only [plain_ite, plain_bind, plain_view, plain_complain]
  congr 1
  · congr 1
    funext s
    cases E.ofString s
    · exact plain_complain ..
    · rfl
  · congr 1
    cases E.under
    · simp only [plain_bind, plain_boolean]; rfl
    · exact plain_int ..

mutual
theorem plain_as : ∀ (t : Ty) (v : Value), (t.asT F c N v).plain = t.as F v
  | .json, v => by simp only [Ty.asT, Ty.as, plain_bind, plain_lift]; rfl
  | .struct fs, v => by
    obtain ⟨h1, h2⟩ := plain_load fs {} v fs.defaults
    simp only [Ty.asT, Ty.as, plain_bind, h1, h2]
    congr 1
    funext r
    cases r
    · rfl
    · exact plain_complain ..
  | .user U, v => by
    simp only [Ty.asT, Ty.as]
    cases U.load v
    · exact plain_complain ..
    · rfl
  | .bool, v => by simp only [Ty.asT, Ty.as, plain_bind, plain_boolean]; rfl
  | .null, v => by simp only [Ty.asT, Ty.as, plain_bind, plain_null]; rfl
  | .nullable .pointer t, v => by simp only [Ty.asT, Ty.as, plain_ite, plain_bind, plain_as t v]; rfl
  | .nullable .optional t, v => by simp only [Ty.asT, Ty.as, plain_bind, plain_as t v]; rfl
  | .enum E, v => by simp only [Ty.asT, Ty.as, plain_bind, plain_enum]; rfl
  | .int T, v => by simp only [Ty.asT, Ty.as, plain_bind, plain_int]; rfl
  | .float f, v => by simp only [Ty.asT, Ty.as, plain_bind, plain_float]; rfl
  | .string, v => by simp only [Ty.asT, Ty.as, plain_bind, plain_string]; rfl
  | .jarray, v => by
    simp only [Ty.asT, Ty.as, plain_bind, plain_array]
    congr 1
    funext vs
    rw [plain_each fun w _ => plain_lift _]
    rfl
  | .seq t, v => by
    simp only [Ty.asT, Ty.as, plain_bind, plain_array]
    congr 1
    funext vs
    rw [plain_each fun w _ => plain_as t w]
    rfl
  | .set lt t, v => by
    simp only [Ty.asT, Ty.as, plain_bind, plain_array]
    congr 1
    funext vs
    rw [plain_each fun w _ => plain_as t w]
    rfl
  | .fixed n t, v => by
    simp only [Ty.asT, Ty.as, plain_bind, plain_array]
    congr 1
    funext vs
    simp only [plain_ite, plain_bind]
    rw [plain_each fun w _ => plain_as t w]
    rfl
  | .tuple ts, v => by
    simp only [Ty.asT, Ty.as, plain_ite, plain_bind, plain_array, plain_nth ts, plain_all ts]
    rfl
  | .variant ts, v => by
    simp only [Ty.asT, Ty.as]
    cases ts.chosen
    · exact plain_any ts 0 v
    · simp only [plain_bind, plain_nth ts]; rfl
  | .jobject, v => by
    simp only [Ty.asT, Ty.as, plain_bind, plain_object]
    congr 1
    funext ms
    rw [plain_each (g := fun e : Bytes × Value => e.2.copied.bind fun w => .ok (e.1, w)) fun e _ => by simp only [plain_bind, plain_lift]; rfl]
    rfl
  | .map t, v => by
    simp only [Ty.asT, Ty.as, plain_bind, plain_object]
    congr 1
    funext ms
    rw [plain_each (g := fun e : Bytes × Value => (t.as F e.2).bind fun x => .ok (e.1, x)) fun e _ => by simp only [plain_bind, plain_as t e.2]; rfl]
    rfl
theorem plain_all : ∀ (ts : Tys) (vs : List Value), (ts.asAllT F c N vs).plain = ts.asAll F vs
  | .nil, _ => by simp only [Tys.asAllT, Tys.asAll]; rfl
  | .cons _ _, [] => by simp only [Tys.asAllT, Tys.asAll]; rfl
  | .cons t ts, v :: vs => by simp only [Tys.asAllT, Tys.asAll, plain_bind, plain_as t v, plain_all ts vs]; rfl
theorem plain_nth : ∀ (ts : Tys) (i : Nat) (v : Value), (ts.asNthT F c N i v).plain = ts.asNth F i v
  | .nil, _, _ => by simp only [Tys.asNthT, Tys.asNth]; rfl
  | .cons t _, 0, v => by simp only [Tys.asNthT, Tys.asNth, plain_as t v]
  | .cons _ ts, i + 1, v => by simp only [Tys.asNthT, Tys.asNth, plain_nth ts i v]
theorem plain_any : ∀ (ts : Tys) (i : Nat) (v : Value), (ts.asAnyT F c N i v).plain = ts.asAny F i v
  | .nil, _, v => by simp only [Tys.asAnyT, Tys.asAny]; exact plain_complain ..
  | .cons t ts, i, v => by
    simp only [Tys.asAnyT, Tys.asAny, plain_bind, plain_lift, plain_ite, plain_as t v, plain_any ts (i + 1) v]
    rfl
theorem plain_load : ∀ (fs : Fields) (st : NextState) (v : Value) (dst : List CVal),
    (fs.loadT F c N st v dst).1.plain = (fs.load F st v dst).1 ∧ (fs.loadT F c N st v dst).2 = (fs.load F st v dst).2
  | .done, _, _, dst => by simp only [Fields.loadT, Fields.load]; exact ⟨rfl, trivial⟩
  | .opt rest, st, v, dst => by simp only [Fields.loadT, Fields.load]; exact plain_load rest _ v dst
  | .key k rest, st, v, dst => by simp only [Fields.loadT, Fields.load]; exact plain_load rest _ v dst
  | .var _ _ _ _, _, _, [] => by simp only [Fields.loadT, Fields.load]; exact ⟨rfl, trivial⟩
  | .var name _ t rest, st, v, d :: dst => by
    simp only [Fields.loadT, Fields.load]
    have ih := plain_load rest {} v dst
    cases v.findKey (st.keyFor name) with
    | ub => exact ⟨rfl, rfl⟩
    | throw e => exact ⟨rfl, rfl⟩
    | ok o =>
      cases o with
      | none =>
        simp only
        split
        · exact ⟨ih.1, by simp only [ih.2]⟩
        · exact ⟨rfl, rfl⟩
      | some w =>
        simp only
        cases t.is F w with
        | ub => exact ⟨rfl, rfl⟩
        | throw e => exact ⟨rfl, rfl⟩
        | ok b =>
          cases b with
          | false => exact ⟨rfl, rfl⟩
          | true =>
            simp only
            have h := plain_as t w
            revert h
            cases t.asT F c N w <;> intro h <;> simp only [Told.plain] at h <;> rw [← h]
            · exact ⟨ih.1, by simp only [ih.2]⟩
            all_goals exact ⟨rfl, rfl⟩
end

end

end Meojson
