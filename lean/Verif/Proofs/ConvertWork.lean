import Verif.Model.ConvertWork
import Verif.Spec.ConvertWork
import Verif.Proofs.Work
import Verif.Proofs.MapOps

/-! The work of conversions from JSON. -/

set_option autoImplicit false

namespace Meojson
open Work Value

section
variable (F : Floats)

/-! ### The results are those of Model/Convert.lean -/

theorem tick_res {α : Type} (r : Work α) : r.tick.res = r.res := rfl
theorem ret_res {α : Type} (r : Out α) : (ret r).res = r := rfl

theorem ite_res {α : Type} (p : Prop) [Decidable p] (a b : Work α) : (if p then a else b).res = if p then a.res else b.res := by split <;> rfl

theorem allAreW_res {α : Type} {p : α → Work Bool} {q : α → Out Bool} (h : ∀ v, (p v).res = q v) : ∀ vs, (allAreW p vs).res = allAre q vs
  | [] => rfl
  | v :: vs => by
    have ih := allAreW_res h vs
    simp only [allAreW, allAre, tick_res, bind_res, h, ite_res, ih, ret_res]

theorem eachOfW_res {α β : Type} {f : α → Work β} {g : α → Out β} (h : ∀ v, (f v).res = g v) : ∀ vs, (eachOfW f vs).res = eachOf g vs
  | [] => rfl
  | v :: vs => by
    have ih := eachOfW_res h vs
    simp only [eachOfW, eachOf, tick_res, bind_res, h, ih, ret_res]

mutual
theorem isW_res : ∀ (t : Ty) (v : Value), (t.isW F v).res = t.is F v
  | .struct fs, v => by simp only [Ty.isW, Ty.is, tick_res, bind_res, ret_res, checkW_res fs]
  | .nullable _ t, v => by simp only [Ty.isW, Ty.is, tick_res, ite_res, ret_res, isW_res t]
  | .seq t, v => by simp only [Ty.isW, Ty.is, tick_res, bind_res, ite_res, ret_res, allAreW_res (isW_res t)]
  | .set _ t, v => by simp only [Ty.isW, Ty.is, tick_res, bind_res, ite_res, ret_res, allAreW_res (isW_res t)]
  | .fixed _ t, v => by simp only [Ty.isW, Ty.is, tick_res, bind_res, ite_res, ret_res, allAreW_res (isW_res t)]
  | .tuple ts, v => by simp only [Ty.isW, Ty.is, tick_res, bind_res, ite_res, ret_res, areAllW_res ts]
  | .variant ts, v => by simp only [Ty.isW, Ty.is, tick_res, isAnyW_res ts]
  | .map t, v => by
    simp only [Ty.isW, Ty.is, tick_res, bind_res, ite_res, ret_res, allAreW_res (p := fun e : Bytes × Value => t.isW F e.2) (q := fun e => t.is F e.2) fun e => isW_res t e.2]
  | .json, v | .bool, v | .int _, v | .float _, v | .string, v | .null, v | .jarray, v | .jobject, v | .enum _, v | .user _, v => by rw [Ty.isW] <;> simp
theorem areAllW_res : ∀ (ts : Tys) (vs : List Value), (ts.areAllW F vs).res = ts.areAll F vs
  | .nil, _ => by simp only [Tys.areAllW, Tys.areAll, ret_res]
  | .cons _ _, [] => by simp only [Tys.areAllW, Tys.areAll, ret_res]
  | .cons t ts, v :: vs => by simp only [Tys.areAllW, Tys.areAll, tick_res, bind_res, ite_res, ret_res, isW_res t, areAllW_res ts]
theorem isAnyW_res : ∀ (ts : Tys) (v : Value), (ts.isAnyW F v).res = ts.isAny F v
  | .nil, _ => by simp only [Tys.isAnyW, Tys.isAny, ret_res]
  | .cons t ts, v => by simp only [Tys.isAnyW, Tys.isAny, bind_res, ite_res, ret_res, isW_res t, isAnyW_res ts]
theorem checkW_res : ∀ (fs : Fields) (st : NextState) (v : Value), (fs.checkW F st v).res = fs.check F st v
  | .done, _, _ => by simp only [Fields.checkW, Fields.check, ret_res]
  | .opt rest, st, v => by simp only [Fields.checkW, Fields.check, checkW_res rest]
  | .key _ rest, st, v => by simp only [Fields.checkW, Fields.check, checkW_res rest]
  | .var name _ t rest, st, v => by
    simp only [Fields.checkW, Fields.check, tick_res, bind_res, ret_res]
    congr 1
    funext o
    cases o with
    | none => simp only [ite_res, ret_res, checkW_res rest]
    | some w => simp only [bind_res, ite_res, ret_res, isW_res t, checkW_res rest]
end

mutual
theorem asW_res : ∀ (t : Ty) (v : Value), (t.asW F v).res = t.as F v
  | .struct fs, v => by
    have h := loadW_res fs {} v fs.defaults
    simp only [Ty.asW, Ty.as, tick_res, bind_res, ← h]
    congr 1
    funext o
    cases o <;> rfl
  | .nullable .pointer t, v => by simp only [Ty.asW, Ty.as, tick_res, bind_res, ite_res, ret_res, asW_res t]
  | .nullable .optional t, v => by simp only [Ty.asW, Ty.as, tick_res, bind_res, ret_res, asW_res t]
  | .seq t, v => by simp only [Ty.asW, Ty.as, tick_res, bind_res, ret_res, eachOfW_res (asW_res t)]
  | .set _ t, v => by simp only [Ty.asW, Ty.as, tick_res, bind_res, ret_res, eachOfW_res (asW_res t)]
  | .fixed _ t, v => by simp only [Ty.asW, Ty.as, tick_res, bind_res, ite_res, ret_res, eachOfW_res (asW_res t)]
  | .tuple ts, v => by simp only [Ty.asW, Ty.as, tick_res, bind_res, ite_res, ret_res, asNthW_res ts, asAllW_res ts]
  | .variant ts, v => by
    rw [Ty.asW, Ty.as, tick_res]
    cases ts.chosen with
    | some i => simp only [bind_res, ret_res, asNthW_res ts]
    | none => exact asAnyW_res ts 0 v
  | .map t, v => by
    simp only [Ty.asW, Ty.as, tick_res, bind_res, ret_res]
    congr 1
    funext ms
    rw [eachOfW_res (g := fun e : Bytes × Value => (t.as F e.2).bind fun x => .ok (e.1, x)) fun e => by simp only [bind_res, asW_res t]]
  | .json, v | .bool, v | .int _, v | .float _, v | .string, v | .null, v | .jarray, v | .jobject, v | .enum _, v | .user _, v => by rw [Ty.asW] <;> simp
theorem asAllW_res : ∀ (ts : Tys) (vs : List Value), (ts.asAllW F vs).res = ts.asAll F vs
  | .nil, _ => by simp only [Tys.asAllW, Tys.asAll, ret_res]
  | .cons _ _, [] => by simp only [Tys.asAllW, Tys.asAll, ret_res]
  | .cons t ts, v :: vs => by simp only [Tys.asAllW, Tys.asAll, tick_res, bind_res, ret_res, asW_res t, asAllW_res ts]
theorem asNthW_res : ∀ (ts : Tys) (i : Nat) (v : Value), (ts.asNthW F i v).res = ts.asNth F i v
  | .nil, _, _ => by simp only [Tys.asNthW, Tys.asNth, ret_res]
  | .cons t _, 0, v => by simp only [Tys.asNthW, Tys.asNth, asW_res t]
  | .cons _ ts, i + 1, v => by simp only [Tys.asNthW, Tys.asNth, asNthW_res ts]
theorem asAnyW_res : ∀ (ts : Tys) (i : Nat) (v : Value), (ts.asAnyW F i v).res = ts.asAny F i v
  | .nil, _, _ => by simp only [Tys.asAnyW, Tys.asAny, ret_res]
  | .cons t ts, i, v => by simp only [Tys.asAnyW, Tys.asAny, bind_res, ite_res, ret_res, isW_res F t, asW_res t, asAnyW_res ts]
theorem loadW_res : ∀ (fs : Fields) (st : NextState) (v : Value) (dst : List CVal), ((fs.loadW F st v dst).1.res, (fs.loadW F st v dst).2) = fs.load F st v dst
  | .done, _, _, _ => by simp only [Fields.loadW, Fields.load, ret_res]
  | .opt rest, st, v, dst => by simp only [Fields.loadW, Fields.load, loadW_res rest]
  | .key _ rest, st, v, dst => by simp only [Fields.loadW, Fields.load, loadW_res rest]
  | .var _ _ _ _, _, _, [] => by simp only [Fields.loadW, Fields.load, ret_res]
  | .var name _ t rest, st, v, d :: dst => by
    have ih := loadW_res rest {} v dst
    simp only [Fields.loadW, Fields.load]
    cases v.findKey (st.keyFor name) with
    | ok o =>
      cases o with
      | none => simp only [← ih]; split <;> rfl
      | some w =>
        simp only [isW_res, asW_res t, ← ih]
        cases t.is F w with
        | ok b =>
          cases b with
          | false => rfl
          | true => cases t.as F w <;> rfl
        | throw e => rfl
        | ub => rfl
    | throw e => rfl
    | ub => rfl
end

/-! ### Bounds -/

theorem bind_le {α β : Type} {r : Work α} {f : α → Work β} {a b : Nat} (ha : r.ticks ≤ a) (h : ∀ x, r.res = .ok x → (f x).ticks ≤ b) : (r.bind f).ticks ≤ a + b := by
  unfold Work.bind
  cases hr : r.res with
  | ok x => have := h x hr; simp only; omega
  | throw e => simp only; omega
  | ub => simp only; omega

theorem ite_le {α : Type} {p : Prop} [Decidable p] {x y : Work α} {n : Nat} (hx : p → x.ticks ≤ n) (hy : ¬ p → y.ticks ≤ n) : (if p then x else y).ticks ≤ n := by
  split <;> simp_all

theorem tick_le {α : Type} {r : Work α} {n : Nat} (h : r.ticks ≤ n) : r.tick.ticks ≤ n + 1 := Nat.succ_le_succ h

theorem textLength_weight (v : Value) : 1 + v.textLength ≤ v.weight := by cases v <;> simp [weight, textLength]

theorem weightAll_length : ∀ vs : List Value, vs.length ≤ weightAll vs
  | [] => by simp [weightAll]
  | v :: vs => by have := weightAll_length vs; have := weight_pos v; simp only [weightAll, List.length_cons]; omega

theorem noexcept_ok {α : Type} {r : Out α} {a : α} (h : r.noexcept = .ok a) : r = .ok a := by cases r <;> simp_all [Out.noexcept]

theorem asArray_weight {v : Value} {vs : List Value} (h : v.asArray = .ok vs) : v.weight = 1 + weightAll vs ∧ v.levels = levelsAll vs + 1 := by
  unfold Value.asArray at h
  split at h
  · cases v <;> simp_all [weight, levels]
  · unfold Value.typeError at h; cases hi : v.valueInfo <;> rw [hi] at h <;> cases h

theorem asObject_weight {v : Value} {ms : List (Bytes × Value)} (h : v.asObject = .ok ms) : v.weight = 1 + weightMembers ms ∧ v.levels = levelsMembers ms + 1 := by
  unfold Value.asObject at h
  split at h
  · cases v <;> simp_all [weight, levels]
  · unfold Value.typeError at h; cases hi : v.valueInfo <;> rw [hi] at h <;> cases h

theorem find_weight {k : Bytes} {w : Value} : ∀ {ms : List (Bytes × Value)}, RawObject.find k ms = some w → w.weight ≤ weightMembers ms ∧ w.levels ≤ levelsMembers ms
  | [], h => by cases h
  | (k', v') :: ms, h => by
    rw [RawObject.find] at h
    simp only [weightMembers, levelsMembers]
    split at h
    · cases h
    · split at h
      · have := find_weight h; omega
      · cases h; omega

theorem findKey_weight {k : Bytes} {v w : Value} (h : v.findKey k = .ok (some w)) : w.weight < v.weight ∧ w.levels < v.levels := by
  unfold Value.findKey at h
  split at h
  · cases ho : v.asObject with
    | ok ms =>
      rw [ho] at h
      have h1 := asObject_weight ho
      have h2 := find_weight (Out.ok.inj h)
      omega
    | throw e => rw [ho] at h; cases h
    | ub => rw [ho] at h; cases h
  · cases h

theorem allAreW_le {α : Type} {p : α → Work Bool} {c : α → Nat} (h : ∀ v, (p v).ticks ≤ c v) : ∀ vs, (allAreW p vs).ticks ≤ (vs.map fun v => 1 + c v).sum
  | [] => Nat.le_refl _
  | v :: vs => by
    have ih := allAreW_le h vs
    simp only [allAreW, List.map_cons, List.sum_cons]
    have := tick_le (bind_le (f := fun b => if b = true then allAreW p vs else ret (.ok false)) (h v) (b := (vs.map fun v => 1 + c v).sum) fun b _ =>
      ite_le (fun _ => ih) fun _ => Nat.zero_le _)
    omega

theorem eachOfW_le {α β : Type} {f : α → Work β} {c : α → Nat} (h : ∀ v, (f v).ticks ≤ c v) : ∀ vs, (eachOfW f vs).ticks ≤ (vs.map fun v => 1 + c v).sum
  | [] => Nat.le_refl _
  | v :: vs => by
    have ih := eachOfW_le h vs
    simp only [eachOfW, List.map_cons, List.sum_cons]
    have := tick_le (bind_le (f := fun x => (eachOfW f vs).bind fun xs => ret (.ok (x :: xs))) (h v) (b := (vs.map fun v => 1 + c v).sum) fun x _ =>
      bind_le (b := 0) ih fun _ _ => Nat.le_refl _)
    omega

theorem sum_le_weight {c : Value → Nat} {n : Nat} (h : ∀ v, 1 + c v ≤ n * v.weight) : ∀ vs : List Value, (vs.map fun v => 1 + c v).sum ≤ n * weightAll vs
  | [] => by simp [weightAll]
  | v :: vs => by
    have ih := sum_le_weight h vs
    have := h v
    simp only [List.map_cons, List.sum_cons, weightAll, Nat.mul_add]
    omega

theorem sum_le_weightMembers {c : Bytes × Value → Nat} {n : Nat} (h : ∀ e, 1 + c e ≤ n * (e.1.length + e.2.weight)) :
    ∀ ms : List (Bytes × Value), (ms.map fun e => 1 + c e).sum ≤ n * weightMembers ms
  | [] => by simp [weightMembers]
  | (k, v) :: ms => by
    have ih := sum_le_weightMembers h ms
    have := h (k, v)
    simp only [List.map_cons, List.sum_cons, weightMembers, Nat.mul_add] at *
    omega

theorem seq_le {α : Type} {v : Value} {e : Nat} {G : List Value → Work α} (h : ∀ vs, (G vs).ticks ≤ e * weightAll vs) (r : Out (List Value)) (hr : ∀ vs, r = .ok vs → v.asArray = .ok vs) :
    ((ret r).bind G).ticks ≤ e * (v.weight - 1) := by
  have := bind_le (r := ret r) (f := G) (a := 0) (b := e * (v.weight - 1)) (Nat.le_refl _) fun vs hvs => by
    have h1 := (asArray_weight (hr vs hvs)).1
    have h2 := h vs
    rw [h1, Nat.add_sub_cancel_left]
    exact h2
  omega

theorem mul_pred {e w : Nat} (hw : 1 ≤ w) : e * (w - 1) + e = e * w := by
  obtain ⟨n, rfl⟩ : ∃ n, w = n + 1 := ⟨w - 1, by omega⟩
  rw [Nat.add_sub_cancel, Nat.mul_add, Nat.mul_one]

theorem grow {e w x : Nat} (hw : 1 ≤ w) (h : x ≤ e * w) : 1 + x ≤ (e + 1) * w := by
  rw [Nat.add_mul, Nat.one_mul]; omega

theorem elements_le {α : Type} {v : Value} {e : Nat} {G : List Value → Work α} (h : ∀ vs, (G vs).ticks ≤ (e + 1) * weightAll vs) (r : Out (List Value))
    (hr : ∀ vs, r = .ok vs → v.asArray = .ok vs) : ((ret r).bind G).tick.ticks ≤ (e + 1) * v.weight := by
  have h1 := seq_le h r hr
  have h2 := mul_pred (e := e + 1) (weight_pos v)
  have := tick_le h1
  omega

theorem ones {e w : Nat} (hw : 1 ≤ w) (he : 1 ≤ e) : 1 ≤ e * w := Nat.mul_le_mul he hw

mutual
theorem isW_extent : ∀ (t : Ty) (v : Value), (t.isW F v).ticks ≤ t.extent * v.weight
  | .struct fs, v => by
    have h := checkW_extent fs {} v
    have hw := weight_pos v
    rw [Ty.isW, Ty.extent, Nat.add_mul, Nat.one_mul]
    have := tick_le (bind_le (b := 0) (f := fun e : Option Bytes => ret (.ok e.isNone)) h fun _ _ => Nat.le_refl _)
    omega
  | .nullable _ t, v => by
    have h := isW_extent t v
    have hw := weight_pos v
    rw [Ty.isW, Ty.extent, Nat.add_mul, Nat.one_mul]
    have := tick_le (ite_le (p := v.type = .null) (x := ret (.ok true)) (fun _ => Nat.zero_le _) fun _ => h)
    omega
  | .seq t, v => by
    have hw := weight_pos v
    rw [Ty.isW, Ty.extent]
    split
    · exact elements_le (fun vs => Nat.le_trans (allAreW_le (isW_extent t) vs) (sum_le_weight (fun v => grow (weight_pos v) (Nat.le_refl _)) vs)) _ fun _ h => noexcept_ok h
    · exact ones hw (by omega)
  | .set _ t, v => by
    have hw := weight_pos v
    rw [Ty.isW, Ty.extent]
    split
    · exact elements_le (fun vs => Nat.le_trans (allAreW_le (isW_extent t) vs) (sum_le_weight (fun v => grow (weight_pos v) (Nat.le_refl _)) vs)) _ fun _ h => noexcept_ok h
    · exact ones hw (by omega)
  | .fixed _ t, v => by
    have hw := weight_pos v
    rw [Ty.isW, Ty.extent]
    split
    · exact elements_le (fun vs => ite_le (fun _ => Nat.le_trans (allAreW_le (isW_extent t) vs) (sum_le_weight (fun v => grow (weight_pos v) (Nat.le_refl _)) vs)) fun _ => Nat.zero_le _) _
        fun _ h => noexcept_ok h
    · exact ones hw (by omega)
  | .tuple ts, v => by
    have hw := weight_pos v
    rw [Ty.isW, Ty.extent]
    split
    · exact elements_le (fun vs => ite_le (fun _ => Nat.le_trans (areAllW_extent ts vs) (Nat.mul_le_mul (by omega) (Nat.le_refl _))) fun _ => Nat.zero_le _) _ fun _ h => noexcept_ok h
    · exact ones hw (by omega)
  | .variant ts, v => by
    have h := isAnyW_extent ts v
    have hw := weight_pos v
    rw [Ty.isW, Ty.extent, Nat.add_mul, Nat.one_mul]
    have := tick_le h
    omega
  | .map t, v => by
    have hw := weight_pos v
    rw [Ty.isW, Ty.extent]
    split
    · have := tick_le (bind_le (r := ret v.asObject.noexcept) (f := fun ms => allAreW (fun e => t.isW F e.2) ms) (a := 0) (b := (t.extent + 1) * (v.weight - 1)) (Nat.le_refl _)
        fun ms hms => by
          rw [(asObject_weight (noexcept_ok hms)).1, Nat.add_sub_cancel_left]
          refine Nat.le_trans (allAreW_le (c := fun e : Bytes × Value => t.extent * e.2.weight) (fun e => isW_extent t e.2) ms) (sum_le_weightMembers (fun e => ?_) ms)
          have := grow (e := t.extent) (weight_pos e.2) (Nat.le_refl _)
          rw [Nat.mul_add]; omega)
      have := mul_pred (e := t.extent + 1) hw
      omega
    · exact ones hw (by omega)
  | .json, v | .bool, v | .int _, v | .float _, v | .string, v | .null, v | .jarray, v | .jobject, v | .enum _, v | .user _, v => by
    have h := textLength_weight v
    rw [Ty.isW] <;> simp [Ty.extent, h]
theorem areAllW_extent : ∀ (ts : Tys) (vs : List Value), (ts.areAllW F vs).ticks ≤ ts.extent * weightAll vs
  | .nil, _ => by simp [Tys.areAllW, ret]
  | .cons _ _, [] => by simp [Tys.areAllW, ret]
  | .cons t ts, v :: vs => by
    have h1 := grow (weight_pos v) (isW_extent t v)
    have h2 := areAllW_extent ts vs
    rw [Tys.areAllW, Tys.extent, weightAll]
    have h3 := tick_le (bind_le (f := fun b => if b = true then ts.areAllW F vs else ret (.ok false)) (Nat.le_refl (t.isW F v).ticks) fun b _ =>
      ite_le (fun _ => h2) fun _ => Nat.zero_le _)
    refine Nat.le_trans h3 ?_
    rw [Nat.add_mul (t.extent + 1), Nat.mul_add (t.extent + 1), Nat.mul_add ts.extent]
    omega
theorem isAnyW_extent : ∀ (ts : Tys) (v : Value), (ts.isAnyW F v).ticks ≤ ts.extent * v.weight
  | .nil, _ => by simp [Tys.isAnyW, ret]
  | .cons t ts, v => by
    have h1 := isW_extent t v
    have h2 := isAnyW_extent ts v
    rw [Tys.isAnyW, Tys.extent, Nat.add_mul, Nat.add_mul]
    have h3 := bind_le (f := fun b => if b = true then ret (.ok true) else ts.isAnyW F v) h1 fun b _ => ite_le (fun _ => Nat.zero_le _) fun _ => h2
    omega
theorem checkW_extent : ∀ (fs : Fields) (st : NextState) (v : Value), (fs.checkW F st v).ticks ≤ fs.extent * v.weight
  | .done, _, _ => by simp [Fields.checkW, ret]
  | .opt rest, st, v => by rw [Fields.checkW, Fields.extent]; exact checkW_extent rest _ v
  | .key _ rest, st, v => by rw [Fields.checkW, Fields.extent]; exact checkW_extent rest _ v
  | .var name _ t rest, st, v => by
    have hw := weight_pos v
    have h2 := checkW_extent rest {} v
    rw [Fields.checkW, Fields.extent, Nat.add_mul, Nat.add_mul, Nat.one_mul]
    refine Nat.le_trans (tick_le (bind_le (a := 0) (b := t.extent * v.weight + rest.extent * v.weight) (Nat.le_refl _) fun o ho => ?_)) (by omega)
    cases o with
    | none => exact ite_le (fun _ => by omega) fun _ => Nat.zero_le _
    | some w =>
      have h0 := (findKey_weight (noexcept_ok ho)).1
      have h1 := Nat.le_trans (isW_extent t w) (Nat.mul_le_mul (Nat.le_refl t.extent) (Nat.le_of_lt h0))
      exact bind_le h1 fun b _ => ite_le (fun _ => h2) fun _ => Nat.zero_le _
end

theorem mul3 {a b c a' b' c' : Nat} (ha : a ≤ a') (hb : b ≤ b') (hc : c ≤ c') : a * b * c ≤ a' * b' * c' := Nat.mul_le_mul (Nat.mul_le_mul ha hb) hc

theorem step_up (e h : Nat) : e * h + 1 ≤ (e + 1) * (h + 1) := by rw [Nat.add_mul, Nat.mul_add, Nat.mul_add]; omega

/-- One more for each value. -/
theorem grow3 {e h w x : Nat} (hw : 1 ≤ w) (hx : x ≤ e * h * w) : 1 + x ≤ (e + 1) * (h + 1) * w :=
  Nat.le_trans (grow hw hx) (Nat.mul_le_mul (step_up e h) (Nat.le_refl w))

theorem members_le {α : Type} {v : Value} {e : Nat} {G : List (Bytes × Value) → Work α} (h : ∀ ms, (G ms).ticks ≤ (e + 1) * weightMembers ms) (r : Out (List (Bytes × Value)))
    (hr : ∀ ms, r = .ok ms → v.asObject = .ok ms) : ((ret r).bind G).tick.ticks ≤ (e + 1) * v.weight := by
  have h1 := bind_le (r := ret r) (f := G) (a := 0) (b := (e + 1) * (v.weight - 1)) (Nat.le_refl _) fun ms hms => by
    rw [(asObject_weight (hr ms hms)).1, Nat.add_sub_cancel_left]
    exact h ms
  have h2 := mul_pred (e := e + 1) (weight_pos v)
  have := tick_le h1
  omega

theorem each_then_le {α β γ : Type} {f : α → Work β} {g : List β → Out γ} {c : α → Nat} (h : ∀ v, (f v).ticks ≤ c v) (vs : List α) :
    ((eachOfW f vs).bind fun xs => ret (g xs)).ticks ≤ (vs.map fun v => 1 + c v).sum := bind_le (b := 0) (eachOfW_le h vs) fun _ _ => Nat.le_refl _

mutual
theorem asW_extent : ∀ (t : Ty) (v : Value), (t.asW F v).ticks ≤ t.extent * t.height * v.weight
  | .struct fs, v => by
    have h := loadW_extent fs {} v fs.defaults
    have hw := weight_pos v
    rw [Ty.asW, Ty.extent, Ty.height, Nat.add_mul, Nat.add_mul]
    have := mul3 (Nat.le_refl 1) (show 1 ≤ fs.height + 1 by omega) hw
    exact Nat.le_trans (tick_le (bind_le (b := 0) h fun o _ => by cases o <;> exact Nat.le_refl _)) (by omega)
  | .nullable .pointer t, v => by
    have h := grow3 (weight_pos v) (asW_extent t v)
    rw [Ty.asW, Ty.extent, Ty.height]
    have := tick_le (ite_le (p := v.type = .null) (x := ret (.ok CVal.nothing)) (fun _ => Nat.zero_le _) fun _ =>
      bind_le (b := 0) (f := fun x => ret (.ok (CVal.just x))) (Nat.le_refl (t.asW F v).ticks) fun _ _ => Nat.le_refl _)
    omega
  | .nullable .optional t, v => by
    have h := grow3 (weight_pos v) (asW_extent t v)
    rw [Ty.asW, Ty.extent, Ty.height]
    have := tick_le (bind_le (b := 0) (f := fun x => ret (.ok (CVal.just x))) (Nat.le_refl (t.asW F v).ticks) fun _ _ => Nat.le_refl _)
    omega
  | .seq t, v => by
    rw [Ty.asW, Ty.extent, Ty.height]
    refine Nat.le_trans (elements_le (e := t.extent * t.height) (fun vs => ?_) _ fun _ h => h) (Nat.mul_le_mul (step_up _ _) (Nat.le_refl _))
    exact Nat.le_trans (each_then_le (asW_extent t) vs) (sum_le_weight (fun v => grow (weight_pos v) (Nat.le_refl _)) vs)
  | .set _ t, v => by
    rw [Ty.asW, Ty.extent, Ty.height]
    refine Nat.le_trans (elements_le (e := t.extent * t.height) (fun vs => ?_) _ fun _ h => h) (Nat.mul_le_mul (step_up _ _) (Nat.le_refl _))
    exact Nat.le_trans (each_then_le (asW_extent t) vs) (sum_le_weight (fun v => grow (weight_pos v) (Nat.le_refl _)) vs)
  | .fixed _ t, v => by
    rw [Ty.asW, Ty.extent, Ty.height]
    refine Nat.le_trans (elements_le (e := t.extent * t.height) (fun vs => ?_) _ fun _ h => h) (Nat.mul_le_mul (step_up _ _) (Nat.le_refl _))
    exact ite_le (fun _ => Nat.le_trans (each_then_le (asW_extent t) vs) (sum_le_weight (fun v => grow (weight_pos v) (Nat.le_refl _)) vs)) fun _ => Nat.zero_le _
  | .tuple ts, v => by
    have hw := weight_pos v
    rw [Ty.asW, Ty.extent, Ty.height]
    split
    · rw [Nat.add_mul, Nat.add_mul]
      have := tick_le (bind_le (b := 0) (f := fun x => ret (.ok (CVal.list [x]))) (asNthW_extent ts 0 v) fun _ _ => Nat.le_refl _)
      have := mul3 (Nat.le_refl 1) (show 1 ≤ ts.height + 1 by omega) hw
      omega
    · refine Nat.le_trans (elements_le (e := ts.extent * (ts.height + 1)) (fun vs => ?_) _ fun _ h => h) ?_
      · refine ite_le (fun _ => ?_) fun _ => Nat.zero_le _
        exact Nat.le_trans (bind_le (b := 0) (asAllW_extent ts vs) fun _ _ => Nat.le_refl _) (Nat.mul_le_mul (by omega) (Nat.le_refl _))
      · rw [Nat.add_mul ts.extent]
        exact Nat.mul_le_mul (by omega) (Nat.le_refl _)
  | .variant ts, v => by
    have hw := weight_pos v
    have h1 := mul3 (Nat.le_refl 1) (show 1 ≤ ts.height + 1 by omega) hw
    rw [Ty.asW, Ty.extent, Ty.height, Nat.add_mul, Nat.add_mul]
    cases ts.chosen with
    | some i =>
      have := tick_le (bind_le (b := 0) (f := fun x => ret (.ok (CVal.alt i x))) (asNthW_extent ts i v) fun _ _ => Nat.le_refl _)
      simp only at *
      omega
    | none =>
      have := tick_le (asAnyW_extent ts 0 v)
      simp only at *
      omega
  | .map t, v => by
    rw [Ty.asW, Ty.extent, Ty.height]
    refine Nat.le_trans (members_le (e := t.extent * t.height) (fun ms => ?_) _ fun _ h => h) (Nat.mul_le_mul (step_up _ _) (Nat.le_refl _))
    refine Nat.le_trans (each_then_le (c := fun e : Bytes × Value => t.extent * t.height * e.2.weight + e.1.length) (fun e => ?_) ms) (sum_le_weightMembers (fun e => ?_) ms)
    · exact bind_le (asW_extent t e.2) fun _ _ => Nat.le_refl _
    · have := grow (e := t.extent * t.height) (weight_pos e.2) (Nat.le_refl _)
      rw [Nat.mul_add, Nat.add_mul _ _ e.1.length]; omega
  | .json, v | .jarray, v | .jobject, v => by rw [Ty.asW, Ty.extent, Ty.height] <;> simp
  | .bool, v | .int _, v | .float _, v | .string, v | .null, v | .enum _, v | .user _, v => by
    have h := textLength_weight v
    rw [Ty.asW] <;> simp [Ty.extent, Ty.height, h]
theorem asAllW_extent : ∀ (ts : Tys) (vs : List Value), (ts.asAllW F vs).ticks ≤ ts.extent * (ts.height + 1) * weightAll vs
  | .nil, _ => by simp [Tys.asAllW, ret]
  | .cons _ _, [] => by simp [Tys.asAllW, ret]
  | .cons t ts, v :: vs => by
    have h1 := Nat.le_trans (grow3 (weight_pos v) (asW_extent t v)) (mul3 (Nat.le_refl _) (show t.height + 1 ≤ max t.height ts.height + 1 by omega) (Nat.le_refl _))
    have h2 := Nat.le_trans (asAllW_extent ts vs) (mul3 (Nat.le_refl _) (show ts.height + 1 ≤ max t.height ts.height + 1 by omega) (Nat.le_refl _))
    rw [Tys.asAllW, Tys.extent, Tys.height, weightAll]
    have h3 := tick_le (bind_le (f := fun x => (ts.asAllW F vs).bind fun xs => ret (.ok (x :: xs))) (Nat.le_refl (t.asW F v).ticks) fun x _ =>
      bind_le (b := 0) h2 fun _ _ => Nat.le_refl _)
    refine Nat.le_trans h3 ?_
    rw [Nat.add_mul (t.extent + 1), Nat.add_mul ((t.extent + 1) * _), Nat.mul_add ((t.extent + 1) * _), Nat.mul_add (ts.extent * _)]
    omega
theorem asNthW_extent : ∀ (ts : Tys) (i : Nat) (v : Value), (ts.asNthW F i v).ticks ≤ ts.extent * (ts.height + 1) * v.weight
  | .nil, _, _ => by simp [Tys.asNthW, ret]
  | .cons t _, 0, v => by
    rw [Tys.asNthW, Tys.extent, Tys.height]
    exact Nat.le_trans (asW_extent t v) (mul3 (by omega) (by omega) (Nat.le_refl _))
  | .cons _ ts, i + 1, v => by
    rw [Tys.asNthW, Tys.extent, Tys.height]
    exact Nat.le_trans (asNthW_extent ts i v) (mul3 (by omega) (by omega) (Nat.le_refl _))
theorem asAnyW_extent : ∀ (ts : Tys) (i : Nat) (v : Value), (ts.asAnyW F i v).ticks ≤ ts.extent * (ts.height + 1) * v.weight
  | .nil, _, _ => by simp [Tys.asAnyW, ret]
  | .cons t ts, i, v => by
    have h1 := isW_extent F t v
    have h2 := asW_extent t v
    have h3 := Nat.le_trans (asAnyW_extent ts (i + 1) v) (mul3 (Nat.le_refl _) (show ts.height + 1 ≤ max t.height ts.height + 1 by omega) (Nat.le_refl _))
    rw [Tys.asAnyW, Tys.extent, Tys.height]
    have h4 := bind_le (b := t.extent * t.height * v.weight + ts.extent * (max t.height ts.height + 1) * v.weight)
      (f := fun b => if b = true then (t.asW F v).bind fun x => ret (.ok (CVal.alt i x)) else ts.asAnyW F (i + 1) v) h1 fun b _ =>
      ite_le (fun _ => Nat.le_trans (bind_le (b := 0) h2 fun _ _ => Nat.le_refl _) (by omega)) fun _ => by omega
    refine Nat.le_trans h4 ?_
    have h5 := mul3 (show t.extent ≤ t.extent + 1 by omega) (show t.height + 1 ≤ max t.height ts.height + 1 by omega) (Nat.le_refl v.weight)
    rw [Nat.mul_add t.extent, Nat.add_mul (t.extent * t.height), Nat.mul_one] at h5
    rw [Nat.add_mul (t.extent + 1), Nat.add_mul ((t.extent + 1) * _)]
    omega
theorem loadW_extent : ∀ (fs : Fields) (st : NextState) (v : Value) (dst : List CVal), (fs.loadW F st v dst).1.ticks ≤ fs.extent * (fs.height + 1) * v.weight
  | .done, _, _, _ => by simp [Fields.loadW, ret]
  | .opt rest, st, v, dst => by rw [Fields.loadW, Fields.extent, Fields.height]; exact loadW_extent rest _ v dst
  | .key _ rest, st, v, dst => by rw [Fields.loadW, Fields.extent, Fields.height]; exact loadW_extent rest _ v dst
  | .var _ _ _ _, _, _, [] => by simp [Fields.loadW, ret]
  | .var name _ t rest, st, v, d :: dst => by
    have hw := weight_pos v
    have ih := Nat.le_trans (loadW_extent rest {} v dst) (mul3 (Nat.le_refl _) (show rest.height + 1 ≤ max t.height rest.height + 1 by omega) (Nat.le_refl _))
    have key : ∀ w : Value, w.weight < v.weight → 1 + (t.isW F w).ticks + (t.asW F w).ticks ≤ (t.extent + 1) * (max t.height rest.height + 1) * v.weight := by
      intro w hlt
      have h1 := isW_extent F t w
      have h2 := asW_extent t w
      have h3 : t.extent * w.weight + t.extent * t.height * w.weight = t.extent * (t.height + 1) * w.weight := by
        rw [Nat.mul_add, Nat.mul_one, Nat.add_mul]; omega
      have h4 := mul3 (Nat.le_refl t.extent) (show t.height + 1 ≤ max t.height rest.height + 1 by omega) (Nat.le_of_lt hlt)
      have h5 := mul3 (Nat.le_refl 1) (show 1 ≤ max t.height rest.height + 1 by omega) hw
      rw [Nat.add_mul t.extent, Nat.add_mul (t.extent * _)]
      omega
    have one : 1 ≤ (t.extent + 1) * (max t.height rest.height + 1) * v.weight := by
      have := mul3 (show 1 ≤ t.extent + 1 by omega) (show 1 ≤ max t.height rest.height + 1 by omega) hw
      omega
    rw [Fields.loadW, Fields.extent, Fields.height, Nat.add_mul (t.extent + 1), Nat.add_mul ((t.extent + 1) * _)]
    cases hf : v.findKey (st.keyFor name) with
    | ok o =>
      cases o with
      | none =>
        simp only
        split
        · have := tick_le ih; simp only; omega
        · show 1 ≤ _; omega
      | some w =>
        have hk := key w (findKey_weight hf).1
        simp only
        cases (t.isW F w).res with
        | ok b =>
          cases b with
          | false => simp only; omega
          | true => simp only; cases (t.asW F w).res <;> simp only <;> omega
        | throw e => simp only; omega
        | ub => simp only; omega
    | throw e => show 1 ≤ _; omega
    | ub => show 1 ≤ _; omega
end

/-! ### Without variants -/

/-- How much the values under these keys weigh together. -/
def found (v : Value) : List Bytes → Nat
  | [] => 0
  | k :: ks => (match v.findKey k with | .ok (some w) => w.weight | _ => 0) + found v ks

def foundIn (ms : List (Bytes × Value)) : List Bytes → Nat
  | [] => 0
  | k :: ks => (match RawObject.find k ms with | some w => w.weight | none => 0) + foundIn ms ks

theorem foundIn_nil : ∀ ks, foundIn [] ks = 0
  | [] => rfl
  | _ :: ks => by rw [foundIn, foundIn_nil ks]; rfl

theorem foundIn_skip {k : Bytes} {v : Value} {ms : List (Bytes × Value)} : ∀ {ks : List Bytes}, k ∉ ks → foundIn ((k, v) :: ms) ks ≤ foundIn ms ks
  | [], _ => Nat.le_refl _
  | k' :: ks, h => by
    rw [List.mem_cons, not_or] at h
    have ih := foundIn_skip (v := v) (ms := ms) (ks := ks) h.2
    have hne : k' ≠ k := fun e => h.1 e.symm
    simp only [foundIn]
    have : (match RawObject.find k' ((k, v) :: ms) with | some w => w.weight | none => 0) ≤ (match RawObject.find k' ms with | some w => w.weight | none => 0) := by
      rw [RawObject.find]
      rcases bytesLt_cases k' k with h3 | h3 | h3
      · simp [h3.1]
      · exact absurd h3.1 hne
      · simp [h3.1, h3.2.1]
    omega

theorem foundIn_cons {k : Bytes} {v : Value} {ms : List (Bytes × Value)} : ∀ {ks : List Bytes}, ks.Nodup → foundIn ((k, v) :: ms) ks ≤ v.weight + foundIn ms ks
  | [], _ => Nat.zero_le _
  | k' :: ks, h => by
    rw [List.nodup_cons] at h
    by_cases e : k' = k
    · subst e
      have h1 := foundIn_skip (v := v) (ms := ms) h.1
      have h2 : RawObject.find k' ((k', v) :: ms) = some v := by simp [RawObject.find, bytesLt_irrefl]
      simp only [foundIn, h2]
      omega
    · have ih := foundIn_cons (k := k) (v := v) (ms := ms) h.2
      have h1 := foundIn_skip (k := k) (v := v) (ms := ms) (ks := [k']) (by simpa using Ne.symm e)
      simp only [foundIn] at h1 ⊢
      omega

theorem foundIn_weight : ∀ {ms : List (Bytes × Value)} {ks : List Bytes}, ks.Nodup → foundIn ms ks ≤ weightMembers ms
  | [], ks, _ => by rw [foundIn_nil]; exact Nat.zero_le _
  | (k, v) :: ms, ks, h => by
    have h1 := foundIn_cons (k := k) (v := v) (ms := ms) h
    have h2 := foundIn_weight (ms := ms) h
    simp only [weightMembers]
    omega

theorem found_foundIn {v : Value} {ms : List (Bytes × Value)} (ht : v.type = .object) (h : v.asObject = .ok ms) : ∀ ks, found v ks = foundIn ms ks
  | [] => rfl
  | k :: ks => by
    rw [found, foundIn, found_foundIn ht h ks, findKey, if_pos ht, h]
    simp only [Out.bind]
    cases RawObject.find k ms <;> rfl

theorem found_zero {v : Value} (h : ∀ ms, v.asObject ≠ .ok ms) : ∀ ks, found v ks = 0
  | [] => rfl
  | k :: ks => by
    rw [found, found_zero h ks, findKey]
    split
    · rename_i w hw
      split at hw
      · cases ho : v.asObject with
        | ok ms => exact absurd ho (h ms)
        | throw e => rw [ho] at hw; cases hw
        | ub => rw [ho] at hw; cases hw
      · cases hw
    · rfl

theorem found_weight {v : Value} {ks : List Bytes} (h : ks.Nodup) : found v ks ≤ v.weight - 1 := by
  by_cases ht : v.type = .object
  · cases ho : v.asObject with
    | ok ms =>
      rw [found_foundIn ht ho, (asObject_weight ho).1, Nat.add_sub_cancel_left]
      exact foundIn_weight h
    | throw e => rw [found_zero (by rw [ho]; exact nofun)]; exact Nat.zero_le _
    | ub => rw [found_zero (by rw [ho]; exact nofun)]; exact Nat.zero_le _
  · have : ∀ ks, found v ks = 0 := by
      intro ks
      induction ks with
      | nil => rfl
      | cons k ks ih => rw [found, ih, findKey, if_neg ht]
    rw [this]; exact Nat.zero_le _

theorem own_lt {K : Nat} {t : Ty} (h : t.Modest K) : t.own < K := by
  cases t <;> simp only [Ty.Modest] at h <;> first | exact h.elim | exact h.1 | exact h

theorem modest_is {K w o x : Nat} (hw : 1 ≤ w) (ho : o < K) (hx : x ≤ o + K * (w - 1)) : 1 + x ≤ K * w := by
  have := mul_pred (e := K) hw
  omega

theorem membersFrom_length (fs : Fields) : ∀ (o o' : Bool) (k k' : Option Bytes), (fs.membersFrom o k).length = (fs.membersFrom o' k').length := by
  match fs with
  | .done => intros; rfl
  | .opt rest => intros; exact membersFrom_length rest _ _ _ _
  | .key _ rest => intros; exact membersFrom_length rest _ _ _ _
  | .var _ _ _ rest => intros; simp [Fields.membersFrom]

theorem keyFor_match (o : Bool) (k : Option Bytes) (name : Bytes) : (NextState.mk o k).keyFor name = match k with | some k' => k' | none => name := by cases k <;> rfl

theorem elements_modest {α : Type} {v : Value} {K : Nat} {G : List Value → Work α} (h : ∀ vs, (G vs).ticks ≤ K * weightAll vs) (r : Out (List Value))
    (hr : ∀ vs, r = .ok vs → v.asArray = .ok vs) : ((ret r).bind G).tick.ticks ≤ 1 + K * (v.weight - 1) := by
  have := tick_le (seq_le h r hr)
  omega

mutual
theorem isW_modest {K : Nat} : ∀ (t : Ty) (v : Value), t.Modest K → (t.isW F v).ticks ≤ t.own + K * (v.weight - 1)
  | .struct fs, v, h => by
    have h1 := checkW_modest fs false none v h.2.2
    have h2 := Nat.mul_le_mul (Nat.le_refl K) (found_weight (v := v) h.2.1)
    rw [Ty.isW, Ty.own]
    have := tick_le (bind_le (b := 0) (f := fun e : Option Bytes => ret (.ok e.isNone)) h1 fun _ _ => Nat.le_refl _)
    simp only [Fields.members] at *
    omega
  | .nullable _ t, v, h => by
    have h1 := isW_modest t v h.2
    rw [Ty.isW, Ty.own]
    have := tick_le (ite_le (p := v.type = .null) (x := ret (.ok true)) (fun _ => Nat.zero_le _) fun _ => h1)
    omega
  | .seq t, v, h => by
    rw [Ty.isW]
    show _ ≤ 1 + K * (v.weight - 1)
    split
    · exact elements_modest (fun vs => Nat.le_trans (allAreW_le (isW_modest t · h.2) vs) (sum_le_weight (fun v => modest_is (weight_pos v) (own_lt h.2) (Nat.le_refl _)) vs)) _
        fun _ h => noexcept_ok h
    · exact Nat.le_add_right _ _
  | .set _ t, v, h => by
    rw [Ty.isW]
    show _ ≤ 1 + K * (v.weight - 1)
    split
    · exact elements_modest (fun vs => Nat.le_trans (allAreW_le (isW_modest t · h.2) vs) (sum_le_weight (fun v => modest_is (weight_pos v) (own_lt h.2) (Nat.le_refl _)) vs)) _
        fun _ h => noexcept_ok h
    · exact Nat.le_add_right _ _
  | .fixed _ t, v, h => by
    rw [Ty.isW]
    show _ ≤ 1 + K * (v.weight - 1)
    split
    · exact elements_modest (fun vs => ite_le (fun _ => Nat.le_trans (allAreW_le (isW_modest t · h.2) vs)
        (sum_le_weight (fun v => modest_is (weight_pos v) (own_lt h.2) (Nat.le_refl _)) vs)) fun _ => Nat.zero_le _) _ fun _ h => noexcept_ok h
    · exact Nat.le_add_right _ _
  | .tuple ts, v, h => by
    rw [Ty.isW, Ty.own]
    split
    · refine Nat.le_trans (elements_modest (K := K) (fun vs => ite_le (fun _ => areAllW_modest ts vs h.2) fun _ => Nat.zero_le _) _ fun _ h => noexcept_ok h) (by omega)
    · show 1 ≤ _; omega
  | .variant _, _, h => h.elim
  | .map t, v, h => by
    rw [Ty.isW]
    show _ ≤ 1 + K * (v.weight - 1)
    split
    · have := tick_le (bind_le (r := ret v.asObject.noexcept) (f := fun ms => allAreW (fun e => t.isW F e.2) ms) (a := 0) (b := K * (v.weight - 1)) (Nat.le_refl _)
        fun ms hms => by
          rw [(asObject_weight (noexcept_ok hms)).1, Nat.add_sub_cancel_left]
          refine Nat.le_trans (allAreW_le (c := fun e : Bytes × Value => t.own + K * (e.2.weight - 1)) (fun e => isW_modest t e.2 h.2) ms) (sum_le_weightMembers (fun e => ?_) ms)
          have := modest_is (weight_pos e.2) (own_lt h.2) (Nat.le_refl _)
          rw [Nat.mul_add]; omega)
      omega
    · exact Nat.le_add_right _ _
  | .json, v, h | .bool, v, h | .int _, v, h | .float _, v, h | .string, v, h | .null, v, h | .jarray, v, h | .jobject, v, h | .enum _, v, h | .user _, v, h => by
    have h1 := textLength_weight v
    have h2 := Nat.mul_le_mul (show 1 ≤ K from by have : 1 < K := h; omega) (Nat.le_refl (v.weight - 1))
    rw [Ty.isW, Ty.own] <;> first | (simp only; omega) | simp
theorem areAllW_modest {K : Nat} : ∀ (ts : Tys) (vs : List Value), ts.Modest K → (ts.areAllW F vs).ticks ≤ K * weightAll vs
  | .nil, _, _ => by simp [Tys.areAllW, ret]
  | .cons _ _, [], _ => by simp [Tys.areAllW, ret]
  | .cons t ts, v :: vs, h => by
    have h1 := modest_is (weight_pos v) (own_lt h.1) (isW_modest t v h.1)
    have h2 := areAllW_modest ts vs h.2
    rw [Tys.areAllW, weightAll, Nat.mul_add]
    have h3 := tick_le (bind_le (f := fun b => if b = true then ts.areAllW F vs else ret (.ok false)) (Nat.le_refl (t.isW F v).ticks) fun b _ =>
      ite_le (fun _ => h2) fun _ => Nat.zero_le _)
    omega
theorem checkW_modest {K : Nat} : ∀ (fs : Fields) (o : Bool) (k : Option Bytes) (v : Value), fs.Modest K →
    (fs.checkW F ⟨o, k⟩ v).ticks ≤ (fs.membersFrom o k).length + K * found v ((fs.membersFrom o k).map (·.key))
  | .done, _, _, _, _ => by simp [Fields.checkW, ret]
  | .opt rest, o, k, v, h => by rw [Fields.checkW, Fields.membersFrom]; exact checkW_modest rest true k v h
  | .key k' rest, o, k, v, h => by rw [Fields.checkW, Fields.membersFrom]; exact checkW_modest rest o (some k') v h
  | .var name d t rest, o, k, v, h => by
    have h2 := checkW_modest rest false none v h.2
    have hk : (Fields.var name d t rest).membersFrom o k = ⟨(NextState.mk o k).keyFor name, o, t⟩ :: rest.membersFrom false none := by
      unfold NextState.keyFor; cases k <;> rfl
    rw [Fields.checkW, hk, List.map_cons, List.length_cons, found, Nat.mul_add]
    simp only
    generalize (NextState.mk o k).keyFor name = key
    refine Nat.le_trans (tick_le (bind_le (a := 0) (b := (rest.membersFrom false none).length + K * (match v.findKey key with | .ok (some w) => w.weight | _ => 0) +
      K * found v ((rest.membersFrom false none).map (·.key))) (Nat.le_refl _) fun x hx => ?_)) (by omega)
    have hx := noexcept_ok hx
    cases x with
    | none => exact ite_le (fun _ => by rw [hx]; exact Nat.le_trans h2 (by omega)) fun _ => Nat.zero_le _
    | some w =>
      have h1 := modest_is (weight_pos w) (own_lt h.1) (isW_modest t w h.1)
      rw [hx]
      refine Nat.le_trans (bind_le (Nat.le_refl (t.isW F w).ticks) fun b _ => ite_le (fun _ => h2) fun _ => Nat.zero_le _) ?_
      simp only
      omega
end

theorem levels_pos (v : Value) : 1 ≤ v.levels := by cases v <;> simp [levels]

theorem modest_as {K w l o x : Nat} (hw : 1 ≤ w) (hl : 1 ≤ l) (ho : o < K) (hx : x ≤ o + K * (w - 1) * l) : 1 + x ≤ K * w * l := by
  have h1 := mul_pred (e := K) hw
  have h2 : K * w * l = K * (w - 1) * l + K * l := by rw [← h1, Nat.add_mul]
  have h3 := Nat.mul_le_mul (Nat.le_refl K) hl
  omega

theorem sum_le_levels {c : Value → Nat} {K : Nat} (h : ∀ v, 1 + c v ≤ K * v.weight * v.levels) : ∀ vs : List Value, (vs.map fun v => 1 + c v).sum ≤ K * weightAll vs * levelsAll vs
  | [] => by simp [weightAll]
  | v :: vs => by
    have h1 := Nat.le_trans (sum_le_levels h vs) (Nat.mul_le_mul (Nat.le_refl _) (Nat.le_max_right v.levels (levelsAll vs)))
    have h2 := Nat.le_trans (h v) (Nat.mul_le_mul (Nat.le_refl _) (Nat.le_max_left v.levels (levelsAll vs)))
    simp only [List.map_cons, List.sum_cons, weightAll, levelsAll, Nat.mul_add, Nat.add_mul]
    omega

theorem sum_le_levelsMembers {c : Bytes × Value → Nat} {K : Nat} (h : ∀ e, 1 + c e ≤ K * (e.1.length + e.2.weight) * e.2.levels) :
    ∀ ms : List (Bytes × Value), (ms.map fun e => 1 + c e).sum ≤ K * weightMembers ms * levelsMembers ms
  | [] => by simp [weightMembers]
  | (k, v) :: ms => by
    have h1 := Nat.le_trans (sum_le_levelsMembers h ms) (Nat.mul_le_mul (Nat.le_refl _) (Nat.le_max_right v.levels (levelsMembers ms)))
    have h2 := Nat.le_trans (h (k, v)) (Nat.mul_le_mul (Nat.le_refl _) (Nat.le_max_left v.levels (levelsMembers ms)))
    simp only [List.map_cons, List.sum_cons, weightMembers, levelsMembers, Nat.mul_add, Nat.add_mul] at *
    omega

theorem elements_levels {α : Type} {v : Value} {K : Nat} {G : List Value → Work α} (h : ∀ vs, (G vs).ticks ≤ K * weightAll vs * levelsAll vs) :
    ((ret v.asArray).bind G).tick.ticks ≤ 1 + K * (v.weight - 1) * v.levels := by
  have := tick_le (bind_le (r := ret v.asArray) (f := G) (a := 0) (b := K * (v.weight - 1) * v.levels) (Nat.le_refl _) fun vs hvs => by
    have h1 := asArray_weight (show v.asArray = .ok vs from hvs)
    rw [h1.1, h1.2, Nat.add_sub_cancel_left]
    exact Nat.le_trans (h vs) (Nat.mul_le_mul (Nat.le_refl _) (by omega)))
  omega

mutual
theorem asW_modest {K : Nat} : ∀ (t : Ty) (v : Value), t.Modest K → (t.asW F v).ticks ≤ t.own + K * (v.weight - 1) * v.levels
  | .struct fs, v, h => by
    have h1 := loadW_modest fs false none v fs.defaults h.2.2
    have h2 := Nat.mul_le_mul (Nat.mul_le_mul (Nat.le_refl K) (found_weight (v := v) h.2.1)) (Nat.le_refl v.levels)
    rw [Ty.asW, Ty.own]
    simp only [Fields.members] at *
    exact Nat.le_trans (tick_le (bind_le (b := 0) h1 fun o _ => by cases o <;> exact Nat.le_refl _)) (by omega)
  | .nullable .pointer t, v, h => by
    have h1 := asW_modest t v h.2
    rw [Ty.asW, Ty.own]
    have := tick_le (ite_le (p := v.type = .null) (x := ret (.ok CVal.nothing)) (fun _ => Nat.zero_le _) fun _ =>
      bind_le (b := 0) (f := fun x => ret (.ok (CVal.just x))) (Nat.le_refl (t.asW F v).ticks) fun _ _ => Nat.le_refl _)
    omega
  | .nullable .optional t, v, h => by
    have h1 := asW_modest t v h.2
    rw [Ty.asW, Ty.own]
    have := tick_le (bind_le (b := 0) (f := fun x => ret (.ok (CVal.just x))) (Nat.le_refl (t.asW F v).ticks) fun _ _ => Nat.le_refl _)
    omega
  | .seq t, v, h => by
    rw [Ty.asW]
    exact elements_levels fun vs => Nat.le_trans (each_then_le (asW_modest t · h.2) vs)
      (sum_le_levels (fun v => modest_as (weight_pos v) (levels_pos v) (own_lt h.2) (Nat.le_refl _)) vs)
  | .set _ t, v, h => by
    rw [Ty.asW]
    exact elements_levels fun vs => Nat.le_trans (each_then_le (asW_modest t · h.2) vs)
      (sum_le_levels (fun v => modest_as (weight_pos v) (levels_pos v) (own_lt h.2) (Nat.le_refl _)) vs)
  | .fixed _ t, v, h => by
    rw [Ty.asW]
    exact elements_levels fun vs => ite_le (fun _ => Nat.le_trans (each_then_le (asW_modest t · h.2) vs)
      (sum_le_levels (fun v => modest_as (weight_pos v) (levels_pos v) (own_lt h.2) (Nat.le_refl _)) vs)) fun _ => Nat.zero_le _
  | .tuple ts, v, h => by
    rw [Ty.asW, Ty.own]
    split
    · have := tick_le (bind_le (b := 0) (f := fun x => ret (.ok (CVal.list [x]))) (asOneW_modest ts v h.2 ‹_›) fun _ _ => Nat.le_refl _)
      omega
    · refine Nat.le_trans (elements_levels (K := K) fun vs => ite_le (fun _ => ?_) fun _ => Nat.zero_le _) (by omega)
      exact bind_le (b := 0) (asAllW_modest ts vs h.2) fun _ _ => Nat.le_refl _
  | .variant _, _, h => h.elim
  | .map t, v, h => by
    rw [Ty.asW]
    show _ ≤ 1 + K * (v.weight - 1) * v.levels
    refine Nat.le_trans (tick_le (bind_le (r := ret v.asObject) (a := 0) (b := K * (v.weight - 1) * v.levels) (Nat.le_refl _) fun ms hms => ?_)) (by omega)
    have h1 := asObject_weight (show v.asObject = .ok ms from hms)
    rw [h1.1, h1.2, Nat.add_sub_cancel_left]
    refine Nat.le_trans (Nat.le_trans (each_then_le (c := fun e : Bytes × Value => (t.own + K * (e.2.weight - 1) * e.2.levels) + e.1.length) (fun e => ?_) ms) (sum_le_levelsMembers (K := K) (fun e => ?_) ms))
      (Nat.mul_le_mul (Nat.le_refl _) (by omega))
    · exact bind_le (asW_modest t e.2 h.2) fun _ _ => Nat.le_refl _
    · have h2 := modest_as (weight_pos e.2) (levels_pos e.2) (own_lt h.2) (Nat.le_refl _)
      have h3 := mul3 (show 1 ≤ K from by have : 1 < K := h.1; omega) (Nat.le_refl e.1.length) (levels_pos e.2)
      rw [Nat.mul_add, Nat.add_mul]; omega
  | .json, v, h | .jarray, v, h | .jobject, v, h => by
    have h1 := weight_pos v
    have h2 := mul3 (show 1 ≤ K from by have : 1 < K := h; omega) (Nat.le_refl (v.weight - 1)) (levels_pos v)
    rw [Ty.asW]
    show v.weight ≤ 1 + K * (v.weight - 1) * v.levels
    omega
  | .bool, v, h | .int _, v, h | .float _, v, h | .string, v, h | .null, v, h | .enum _, v, h | .user _, v, h => by
    have h1 := textLength_weight v
    have h2 := mul3 (show 1 ≤ K from by have : 1 < K := h; omega) (Nat.le_refl (v.weight - 1)) (levels_pos v)
    rw [Ty.asW] <;> first | (show 1 + v.textLength ≤ 1 + K * (v.weight - 1) * v.levels; omega) | simp
theorem asOneW_modest {K : Nat} : ∀ (ts : Tys) (v : Value), ts.Modest K → ts.size = 1 → (ts.asNthW F 0 v).ticks ≤ ts.ownOne + K * (v.weight - 1) * v.levels
  | .nil, _, _, _ => by simp [Tys.asNthW, ret]
  | .cons t .nil, v, h, _ => by rw [Tys.asNthW, Tys.ownOne]; exact asW_modest t v h.1
  | .cons _ (.cons _ _), _, _, h => by simp [Tys.size] at h
theorem asAllW_modest {K : Nat} : ∀ (ts : Tys) (vs : List Value), ts.Modest K → (ts.asAllW F vs).ticks ≤ K * weightAll vs * levelsAll vs
  | .nil, _, _ => by simp [Tys.asAllW, ret]
  | .cons _ _, [], _ => by simp [Tys.asAllW, ret]
  | .cons t ts, v :: vs, h => by
    have h1 := Nat.le_trans (modest_as (weight_pos v) (levels_pos v) (own_lt h.1) (asW_modest t v h.1)) (Nat.mul_le_mul (Nat.le_refl _) (Nat.le_max_left v.levels (levelsAll vs)))
    have h2 := Nat.le_trans (asAllW_modest ts vs h.2) (Nat.mul_le_mul (Nat.le_refl _) (Nat.le_max_right v.levels (levelsAll vs)))
    rw [Tys.asAllW, weightAll, levelsAll, Nat.mul_add, Nat.add_mul]
    have h3 := tick_le (bind_le (f := fun x => (ts.asAllW F vs).bind fun xs => ret (.ok (x :: xs))) (Nat.le_refl (t.asW F v).ticks) fun x _ =>
      bind_le (b := 0) h2 fun _ _ => Nat.le_refl _)
    omega
theorem loadW_modest {K : Nat} : ∀ (fs : Fields) (o : Bool) (k : Option Bytes) (v : Value) (dst : List CVal), fs.Modest K →
    (fs.loadW F ⟨o, k⟩ v dst).1.ticks ≤ (fs.membersFrom o k).length + K * found v ((fs.membersFrom o k).map (·.key)) * v.levels
  | .done, _, _, _, _, _ => by simp [Fields.loadW, ret]
  | .opt rest, o, k, v, dst, h => by rw [Fields.loadW, Fields.membersFrom]; exact loadW_modest rest true k v dst h
  | .key k' rest, o, k, v, dst, h => by rw [Fields.loadW, Fields.membersFrom]; exact loadW_modest rest o (some k') v dst h
  | .var _ _ _ _, _, _, _, [], _ => by simp [Fields.loadW, ret]
  | .var name d' t rest, o, k, v, d :: dst, h => by
    have h2 := loadW_modest rest false none v dst h.2
    have hk : (Fields.var name d' t rest).membersFrom o k = ⟨(NextState.mk o k).keyFor name, o, t⟩ :: rest.membersFrom false none := by
      unfold NextState.keyFor; cases k <;> rfl
    rw [Fields.loadW, hk, List.map_cons, List.length_cons, found, Nat.mul_add, Nat.add_mul]
    simp only
    generalize (NextState.mk o k).keyFor name = key
    cases hf : v.findKey key with
    | ok x =>
      cases x with
      | none =>
        simp only
        split
        · have := tick_le h2; simp only; omega
        · show 1 ≤ _; omega
      | some w =>
        have h3 := modest_is (weight_pos w) (own_lt h.1) (isW_modest F t w h.1)
        have h4 := modest_as (weight_pos w) (levels_pos w) (own_lt h.1) (asW_modest t w h.1)
        have h5 := Nat.mul_le_mul (Nat.le_refl (K * w.weight)) (show w.levels + 1 ≤ v.levels from (findKey_weight hf).2)
        rw [Nat.mul_add, Nat.mul_one] at h5
        simp only
        cases (t.isW F w).res with
        | ok b =>
          cases b with
          | false => simp only; omega
          | true => simp only; cases (t.asW F w).res <;> simp only <;> omega
        | throw e => simp only; omega
        | ub => simp only; omega
    | throw e => show 1 ≤ _; omega
    | ub => show 1 ≤ _; omega
end

end

end Meojson
