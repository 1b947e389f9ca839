import Verif.Spec.Steady
import Verif.Proofs.RoundTrip
import Verif.Proofs.Typed

/-! # Proofs: what was written once is written the same again -/

set_option autoImplicit false

namespace Meojson
open Spec RawObject

/-- `x` is written as `v`, whatever the value category. -/
def Writes (F : Floats) (t : Ty) (x : CVal) (v : Value) : Prop := ∀ c, ∃ z, t.store F c x = .ok (v, z)

/-- `x` is written as `v`, and whatever `v` is read as is too. -/
structure Settled (F : Floats) (t : Ty) (x : CVal) (v : Value) : Prop where
  stores : Writes F t x v
  sound : v.Sound
  json : t.Printable F x → v.Json
  again : ∀ y, t.as F v = .ok y → Writes F t y v

theorem Trip.settled {F : Floats} {t : Ty} {x : CVal} {v : Value} (h : Trip F t x v) : Settled F t x v :=
  ⟨h.stores, h.sound, h.json, fun y hy => by rw [h.as] at hy; cases hy; exact h.stores⟩

/-- All elements are written. -/
def WritesAll (F : Floats) (t : Ty) (xs : List CVal) (vs : List Value) : Prop := ∀ c, ∃ ys, eachBoth (t.store F c) xs = .ok (vs, ys)

theorem WritesAll.cons {F : Floats} {t : Ty} {x : CVal} {xs : List CVal} {v : Value} {vs : List Value} (h : Writes F t x v) (hs : WritesAll F t xs vs) :
    WritesAll F t (x :: xs) (v :: vs) := by
  intro c
  obtain ⟨y, hy⟩ := h c
  obtain ⟨ys, hys⟩ := hs c
  exact ⟨y :: ys, by simp [eachBoth, hy, hys]⟩

theorem settled_all {F : Floats} {t : Ty} {xs : List CVal} (h : ∀ x ∈ xs, ∃ v, Settled F t x v) :
    ∃ vs, WritesAll F t xs vs ∧ (∀ v ∈ vs, v.Sound) ∧ ((∀ x ∈ xs, t.Printable F x) → ∀ v ∈ vs, v.Json) ∧
      ∀ ys, eachOf (t.as F) vs = .ok ys → WritesAll F t ys vs := by
  induction xs with
  | nil => exact ⟨[], fun _ => ⟨[], rfl⟩, by simp, by simp, fun ys h => by cases h; exact fun _ => ⟨[], rfl⟩⟩
  | cons x xs ih =>
    obtain ⟨v, hv⟩ := h x (by simp)
    obtain ⟨vs, h1, h2, h3, h4⟩ := ih fun y hy => h y (by simp [hy])
    refine ⟨v :: vs, .cons hv.stores h1, ?_, ?_, ?_⟩
    · intro w hw; rcases List.mem_cons.1 hw with rfl | hw
      · exact hv.sound
      · exact h2 w hw
    · intro hp w hw; rcases List.mem_cons.1 hw with rfl | hw
      · exact hv.json (hp x (by simp))
      · exact h3 (fun y hy => hp y (by simp [hy])) w hw
    · intro ys hy
      rw [eachOf] at hy
      obtain ⟨y, e1, hy⟩ := Out.bind_eq_ok.1 hy
      obtain ⟨ys', e2, hy⟩ := Out.bind_eq_ok.1 hy
      cases hy
      exact .cons (hv.again y e1) (h4 ys' e2)

/-- All members are written. -/
def WritesMembers (F : Floats) (t : Ty) (ms : List (Bytes × CVal)) (vs : List (Bytes × Value)) : Prop :=
  ∀ c, ∃ ys, eachBoth (fun e : Bytes × CVal => (t.store F c e.2).bind fun r => .ok ((e.1, r.1), (e.1, r.2))) ms = .ok (vs, ys)

theorem WritesMembers.cons {F : Floats} {t : Ty} {k : Bytes} {x : CVal} {xs : List (Bytes × CVal)} {v : Value} {vs : List (Bytes × Value)} (h : Writes F t x v)
    (hs : WritesMembers F t xs vs) : WritesMembers F t ((k, x) :: xs) ((k, v) :: vs) := by
  intro c
  obtain ⟨y, hy⟩ := h c
  obtain ⟨ys, hys⟩ := hs c
  exact ⟨(k, y) :: ys, by simp [eachBoth, hy, hys]⟩

theorem settled_members {F : Floats} {t : Ty} {ms : List (Bytes × CVal)} (h : ∀ e ∈ ms, ∃ v, Settled F t e.2 v) :
    ∃ vs, WritesMembers F t ms vs ∧ (∀ e ∈ vs, e.2.Sound) ∧ ((∀ e ∈ ms, t.Printable F e.2) → ∀ e ∈ vs, e.2.Json) ∧ vs.map Prod.fst = ms.map Prod.fst ∧
      ∀ ys, eachOf (fun e : Bytes × Value => (t.as F e.2).bind fun x => .ok (e.1, x)) vs = .ok ys → ys.map Prod.fst = ms.map Prod.fst ∧ WritesMembers F t ys vs := by
  induction ms with
  | nil => exact ⟨[], fun _ => ⟨[], rfl⟩, by simp, by simp, rfl, fun ys h => by cases h; exact ⟨rfl, fun _ => ⟨[], rfl⟩⟩⟩
  | cons e ms ih =>
    obtain ⟨k, x⟩ := e
    obtain ⟨v, hv⟩ := h (k, x) (by simp)
    obtain ⟨vs, h1, h2, h3, h6, h4⟩ := ih fun y hy => h y (by simp [hy])
    refine ⟨(k, v) :: vs, .cons hv.stores h1, ?_, ?_, by simp [h6], ?_⟩
    · intro w hw; rcases List.mem_cons.1 hw with rfl | hw
      · exact hv.sound
      · exact h2 w hw
    · intro hp w hw; rcases List.mem_cons.1 hw with rfl | hw
      · exact hv.json (hp (k, x) (by simp))
      · exact h3 (fun y hy => hp y (by simp [hy])) w hw
    · intro ys hy
      rw [eachOf] at hy
      obtain ⟨p, e1, hy⟩ := Out.bind_eq_ok.1 hy
      obtain ⟨y, e0, e1⟩ := Out.bind_eq_ok.1 e1
      cases e1
      obtain ⟨ys', e2, hy⟩ := Out.bind_eq_ok.1 hy
      cases hy
      obtain ⟨h7, h8⟩ := h4 ys' e2
      exact ⟨by simp [h7], .cons (hv.again y e0) h8⟩

/-- The members of the description are written as `kws`, and so is what each is read as. -/
def Fields.Settles (F : Floats) : Fields → NextState → List CVal → List (Bytes × Value) → Prop
  | .done, _, [], [] => True
  | .opt rest, st, xs, kws => rest.Settles F { st with isOptional := true } xs kws
  | .key k rest, st, xs, kws => rest.Settles F { st with overrideKey := some k } xs kws
  | .var name _ t rest, st, x :: xs, kw :: kws => kw.1 = st.keyFor name ∧ Settled F t x kw.2 ∧ rest.Settles F {} xs kws
  | _, _, _, _ => False

theorem Fields.Settles.keys {F : Floats} : ∀ {fs : Fields} {st : NextState} {xs : List CVal} {kws : List (Bytes × Value)}, fs.Settles F st xs kws →
    kws.map Prod.fst = (fs.membersFrom st.isOptional st.overrideKey).map (·.key)
  | .done, _, [], [], _ => rfl
  | .done, _, _ :: _, _, h => h.elim
  | .done, _, [], _ :: _, h => h.elim
  | .opt rest, st, xs, kws, h => by unfold Fields.Settles at h; exact Fields.Settles.keys (fs := rest) h
  | .key k rest, st, xs, kws, h => by unfold Fields.Settles at h; exact Fields.Settles.keys (fs := rest) h
  | .var name _ t rest, st, x :: xs, kw :: kws, h => by
    have := Fields.Settles.keys (fs := rest) h.2.2
    simp only [List.map_cons, Fields.membersFrom, this, h.1]
    congr 1
    unfold NextState.keyFor
    cases st.overrideKey <;> rfl
  | .var .., _, [], _, h => h.elim
  | .var .., _, _ :: _, [], h => h.elim

theorem Fields.Settles.sound {F : Floats} : ∀ {fs : Fields} {st : NextState} {xs : List CVal} {kws : List (Bytes × Value)}, fs.Settles F st xs kws →
    (∀ e ∈ kws, e.2.Sound) ∧ (fs.Printable F xs → ∀ e ∈ kws, e.2.Json)
  | .done, _, [], [], _ => by simp
  | .done, _, _ :: _, _, h => h.elim
  | .done, _, [], _ :: _, h => h.elim
  | .opt rest, st, xs, kws, h => by unfold Fields.Settles at h; unfold Fields.Printable; exact Fields.Settles.sound (fs := rest) h
  | .key k rest, st, xs, kws, h => by unfold Fields.Settles at h; unfold Fields.Printable; exact Fields.Settles.sound (fs := rest) h
  | .var name _ t rest, st, x :: xs, kw :: kws, h => by
    obtain ⟨h1, h2⟩ := Fields.Settles.sound (fs := rest) h.2.2
    refine ⟨?_, ?_⟩
    · intro w hw; rcases List.mem_cons.1 hw with rfl | hw
      · exact h.2.1.sound
      · exact h1 w hw
    · intro hp w hw; rcases List.mem_cons.1 hw with rfl | hw
      · exact h.2.1.json hp.1
      · exact h2 hp.2 w hw
  | .var .., _, [], _, h => h.elim
  | .var .., _, _ :: _, [], h => h.elim

theorem Fields.Settles.dump {F : Floats} : ∀ {fs : Fields} {st : NextState} {xs : List CVal} {kws : List (Bytes × Value)}, fs.Settles F st xs kws →
    ∀ m, ∃ ys, fs.dump F st xs m = .ok (insertAll kws m, ys)
  | .done, _, [], [], _, m => ⟨[], by simp [Fields.dump, insertAll]⟩
  | .done, _, _ :: _, _, h, _ => h.elim
  | .done, _, [], _ :: _, h, _ => h.elim
  | .opt rest, st, xs, kws, h, m => by unfold Fields.Settles at h; unfold Fields.dump; exact Fields.Settles.dump (fs := rest) h m
  | .key k rest, st, xs, kws, h, m => by unfold Fields.Settles at h; unfold Fields.dump; exact Fields.Settles.dump (fs := rest) h m
  | .var name _ t rest, st, x :: xs, kw :: kws, h, m => by
    obtain ⟨y, hy⟩ := h.2.1.stores .constLv
    obtain ⟨ys, hys⟩ := Fields.Settles.dump (fs := rest) h.2.2 (insertOrAssign (st.keyFor name) kw.2 m)
    refine ⟨y :: ys, ?_⟩
    simp [Fields.dump, hy, hys, insertAll, h.1]
  | .var .., _, [], _, h, _ => h.elim
  | .var .., _, _ :: _, [], h, _ => h.elim

/-- Reading: every key leads to what was written, and what was read is written alike. -/
theorem Fields.Settles.load {F : Floats} : ∀ {fs : Fields} {st : NextState} {xs : List CVal} {kws : List (Bytes × Value)}, fs.Settles F st xs kws →
    ∀ ms, (∀ e ∈ kws, find e.1 ms = some e.2) → ∀ dst, dst.length = fs.size → ∀ ys, fs.load F st (.obj .object ms) dst = (.ok none, ys) →
    ∀ m, ∃ zs, fs.dump F st ys m = .ok (insertAll kws m, zs)
  | .done, _, [], [], _, _, _, [], _, ys, h, m => by
    rw [Fields.load] at h
    cases h
    exact ⟨[], by simp [Fields.dump, insertAll]⟩
  | .done, _, [], [], _, _, _, _ :: _, hd, _, _, _ => by simp [Fields.size] at hd
  | .done, _, _ :: _, _, h, _, _, _, _, _, _, _ => h.elim
  | .done, _, [], _ :: _, h, _, _, _, _, _, _, _ => h.elim
  | .opt rest, st, xs, kws, h, ms, hm, dst, hd, ys, hy, m => by
    unfold Fields.Settles at h; unfold Fields.load at hy; unfold Fields.dump; exact Fields.Settles.load (fs := rest) h ms hm dst hd ys hy m
  | .key k rest, st, xs, kws, h, ms, hm, dst, hd, ys, hy, m => by
    unfold Fields.Settles at h; unfold Fields.load at hy; unfold Fields.dump; exact Fields.Settles.load (fs := rest) h ms hm dst hd ys hy m
  | .var name dflt t rest, st, x :: xs, kw :: kws, h, ms, hm, d :: dst, hd, ys, hy, m => by
    have h3 : (Value.obj .object ms).findKey (st.keyFor name) = .ok (some kw.2) := by
      show Out.ok (find _ ms) = _
      rw [← h.1, hm kw (by simp)]
    obtain ⟨b, hb⟩ := is_total F t kw.2 h.2.1.sound
    unfold Fields.load at hy
    rw [h3] at hy
    simp only [hb] at hy
    cases b with
    | false => simp at hy
    | true =>
      simp only at hy
      cases ha : t.as F kw.2 with
      | ok y =>
        simp only [ha] at hy
        injection hy with h4 h5
        subst h5
        obtain ⟨z, hz⟩ := h.2.1.again y ha .constLv
        obtain ⟨zs, hzs⟩ := Fields.Settles.load (fs := rest) h.2.2 ms (fun e he => hm e (by simp [he])) dst (by simpa [Fields.size] using hd) _ (Prod.ext h4 rfl)
          (insertOrAssign (st.keyFor name) kw.2 m)
        exact ⟨z :: zs, by simp [Fields.dump, hz, hzs, insertAll, h.1]⟩
      | throw e => simp [ha] at hy
      | ub => simp [ha] at hy
  | .var .., _, _, _, _, _, _, [], hd, _, _, _ => by simp [Fields.size] at hd
  | .var .., _, [], _, h, _, _, _, _, _, _, _ => h.elim
  | .var .., _, _ :: _, [], h, _, _, _, _, _, _, _ => h.elim

theorem null_of_type {v : Value} (hv : v.Sound) (h : v.type = .null) : v = .null := by
  cases v with
  | str t s => cases h; rw [show s = [] from hv]; rfl
  | arr t vs => cases h; exact hv.elim
  | obj t ms => cases h; exact hv.elim
  | arrNull t => exact hv.elim
  | objNull t => exact hv.elim

mutual
theorem settled (F : Floats) : ∀ (t : Ty) (x : CVal), t.Has x → t.Steady F x → ∃ v, Settled F t x v
  | .user U, x, _, hl => by
    obtain ⟨v, h1, h2, h3⟩ : ∃ v, U.dump x = some v ∧ v.Sound ∧ ∀ y, U.load v = some y → U.dump y = some v := by simpa [Ty.Steady] using hl
    refine ⟨v, fun _ => ⟨x, by simp [Ty.store, h1]⟩, h2, fun hp => by unfold Ty.Printable at hp; exact hp v h1, fun y hy _ => ⟨y, ?_⟩⟩
    rw [Ty.as] at hy
    cases hu : U.load v with
    | none => simp only [hu, typeError_sound h2] at hy; cases hy
    | some z => simp only [hu] at hy; cases hy; simp [Ty.store, h3 y hu]
  | .bool, .bool b, h, _ => (trip F _ _ h trivial).imp fun _ h => h.settled
  | .int T, .int n, h, _ => (trip F _ _ h trivial).imp fun _ h => h.settled
  | .string, .str s, h, _ => (trip F _ _ h trivial).imp fun _ h => h.settled
  | .null, .null, h, _ => (trip F _ _ h trivial).imp fun _ h => h.settled
  | .json, .json v, h, _ => (trip F _ _ h trivial).imp fun _ h => h.settled
  | .jarray, .jarray vs, h, _ => (trip F _ _ h trivial).imp fun _ h => h.settled
  | .jobject, .jobject ms, h, _ => (trip F _ _ h trivial).imp fun _ h => h.settled
  | .enum E, .enum e, h, hl => (trip F _ _ h hl).imp fun _ h => h.settled
  | .set lt t, .list xs, h, hl => (trip F (.set lt t) (.list xs) h hl).imp fun _ h => h.settled
  | .float f, .flt x, _, h => by
    refine ⟨.str .number (F.print f x), fun _ => ⟨_, by rw [Ty.store]⟩, by simp [Value.Wf], fun hp => hp, fun y hy _ => ?_⟩
    rw [Ty.as] at hy
    obtain ⟨z, hz, hy⟩ := Out.bind_eq_ok.1 hy
    cases hy
    have : F.read f (F.print f x) = some z := by
      cases hr : F.read f (F.print f x) with
      | none => simp [Value.asFloat, Value.type, Value.basicStr, hr] at hz
      | some w => simp [Value.asFloat, Value.type, Value.basicStr, hr] at hz; rw [hz]
    exact ⟨_, by rw [Ty.store, h z this]⟩
  | .nullable .optional t, .nothing, _, hl => by
    refine ⟨.null, fun _ => ⟨_, by rw [Ty.store]⟩, by simp [Value.null, Value.Wf], fun _ => by simp [Value.null, Value.Wf], fun y hy c => ?_⟩
    rw [Ty.as] at hy
    obtain ⟨z, hz, hy⟩ := Out.bind_eq_ok.1 hy
    cases hy
    obtain ⟨w, hw⟩ := hl z hz (c.content .optional)
    exact ⟨.just w, by simp [Ty.store, hw]⟩
  | .nullable .pointer t, .nothing, h, _ => (trip F (.nullable .pointer t) .nothing h trivial).imp fun _ h => h.settled
  | .nullable .optional t, .just x, h, hl => by
    obtain ⟨v, hv⟩ := settled F t x h hl
    refine ⟨v, fun c => ?_, hv.sound, fun hp => hv.json hp, fun y hy c => ?_⟩
    · obtain ⟨y, hy⟩ := hv.stores (c.content .optional)
      exact ⟨.just y, by simp [Ty.store, hy]⟩
    · rw [Ty.as] at hy
      obtain ⟨z, hz, hy⟩ := Out.bind_eq_ok.1 hy
      cases hy
      obtain ⟨w, hw⟩ := hv.again z hz (c.content .optional)
      exact ⟨.just w, by simp [Ty.store, hw]⟩
  | .nullable .pointer t, .just x, h, hl => by
    obtain ⟨v, hv⟩ := settled F t x h hl
    refine ⟨v, fun c => ?_, hv.sound, fun hp => hv.json hp, fun y hy c => ?_⟩
    · obtain ⟨y, hy⟩ := hv.stores (c.content .pointer)
      exact ⟨.just y, by simp [Ty.store, hy]⟩
    · rw [Ty.as] at hy
      by_cases hn : v.type = .null
      · rw [if_pos hn] at hy
        cases hy
        exact ⟨_, by rw [Ty.store, null_of_type hv.sound hn]⟩
      · rw [if_neg hn] at hy
        obtain ⟨z, hz, hy⟩ := Out.bind_eq_ok.1 hy
        cases hy
        obtain ⟨w, hw⟩ := hv.again z hz (c.content .pointer)
        exact ⟨.just w, by simp [Ty.store, hw]⟩
  | .seq t, .list xs, h, hl => by
    obtain ⟨vs, h1, h2, h3, h4⟩ := settled_all fun x hx => settled F t x (h x hx) (hl x hx)
    refine ⟨.ofArray vs, fun c => ?_, wfAll_iff.2 h2, fun hp => wfAll_iff.2 (h3 hp), fun y hy c => ?_⟩
    · obtain ⟨ys, hys⟩ := h1 c.element
      exact ⟨.list ys, by simp [Ty.store, hys]⟩
    · rw [Ty.as] at hy
      obtain ⟨_, hw, hy⟩ := Out.bind_eq_ok.1 hy
      cases hw
      obtain ⟨ys, hw, hy⟩ := Out.bind_eq_ok.1 hy
      cases hy
      obtain ⟨zs, hzs⟩ := h4 ys hw c.element
      exact ⟨.list zs, by simp [Ty.store, hzs]⟩
  | .fixed n t, .list xs, h, hl => by
    obtain ⟨vs, h1, h2, h3, h4⟩ := settled_all fun x hx => settled F t x (h.2 x hx) (hl x hx)
    refine ⟨.ofArray vs, fun c => ?_, wfAll_iff.2 h2, fun hp => wfAll_iff.2 (h3 hp), fun y hy c => ?_⟩
    · obtain ⟨ys, hys⟩ := h1 c.part
      exact ⟨.list ys, by simp [Ty.store, hys]⟩
    · rw [Ty.as] at hy
      obtain ⟨_, hw, hy⟩ := Out.bind_eq_ok.1 hy
      cases hw
      split at hy
      · obtain ⟨ys, hw, hy⟩ := Out.bind_eq_ok.1 hy
        cases hy
        obtain ⟨zs, hzs⟩ := h4 ys hw c.part
        exact ⟨.list zs, by simp [Ty.store, hzs]⟩
      · cases hy
  | .tuple ts, .list xs, h, hl => by
    obtain ⟨vs, h1, h2, h3, h4⟩ := settled_tuple F ts xs h hl.2
    refine ⟨.ofArray vs, fun c => ?_, wfAll_iff.2 h2, fun hp => wfAll_iff.2 (h3 hp), fun y hy c => ?_⟩
    · obtain ⟨ys, hys⟩ := h1 c.part
      exact ⟨.list ys, by simp [Ty.store, hys]⟩
    · rw [Ty.as, if_neg hl.1] at hy
      obtain ⟨_, hw, hy⟩ := Out.bind_eq_ok.1 hy
      cases hw
      split at hy
      · obtain ⟨ys, hw, hy⟩ := Out.bind_eq_ok.1 hy
        cases hy
        obtain ⟨zs, hzs⟩ := h4 ys hw c.part
        exact ⟨.list zs, by simp [Ty.store, hzs]⟩
      · cases hy
  | .variant ts, .alt i x, h, .inl ⟨hc, hl⟩ => by
    obtain ⟨v, hs, hso, hj, has⟩ := settled_nth F ts i x h hl
    refine ⟨v, fun c => ?_, hso, fun hp => hj hp, fun y hy c => ?_⟩
    · obtain ⟨y, hy⟩ := hs c.part
      exact ⟨.alt i y, by simp [Ty.store, hy]⟩
    · rw [Ty.as, hc] at hy
      obtain ⟨z, hz, hy⟩ := Out.bind_eq_ok.1 hy
      cases hy
      obtain ⟨w, hw⟩ := has z hz c.part
      exact ⟨.alt i w, by simp [Ty.store, hw]⟩
  | .variant ts, .alt i x, h, .inr ⟨hc, hl⟩ => by
    obtain ⟨v, u, hu, hs, hso, hj, has⟩ := settled_alt F ts i x h hl
    refine ⟨v, fun c => ?_, hso, fun hp => hj hp, fun y hy c => ?_⟩
    · obtain ⟨y, hy⟩ := hs c.part
      exact ⟨.alt i y, by simp [Ty.store, hy]⟩
    · rw [Ty.as, hc] at hy
      obtain ⟨z, rfl, hz⟩ := has 0 y hy
      obtain ⟨w, hw⟩ := hz c.part
      exact ⟨.alt i w, by simp [Ty.store, hw]⟩
  | .map t, .map ms, h, hl => by
    obtain ⟨vs, h1, h2, h3, h6, h4⟩ := settled_members fun e he => settled F t e.2 (h.2 e he) (hl e he)
    have h7 : Sorted vs := sorted_of_keys h6 h.1
    have h8 := foldl_emplace (a := []) (m := vs) h7
    refine ⟨.ofObject vs, fun c => ?_, ⟨h7, wfMembers_iff.2 h2⟩, fun hp => ⟨h7, wfMembers_iff.2 (h3 hp)⟩, fun y hy c => ?_⟩
    · obtain ⟨ys, hys⟩ := h1 c.element
      exact ⟨.map ys, by simp only [Ty.store, hys, Out.bind_ok, h8, List.nil_append]⟩
    · rw [Ty.as] at hy
      obtain ⟨_, hw, hy⟩ := Out.bind_eq_ok.1 hy
      cases hw
      obtain ⟨ys, hw, hy⟩ := Out.bind_eq_ok.1 hy
      cases hy
      obtain ⟨k1, k2⟩ := h4 ys hw
      obtain ⟨zs, hzs⟩ := k2 c.element
      have k3 := foldl_emplace (a := []) (m := ys) (sorted_of_keys k1 h.1)
      exact ⟨.map zs, by simp only [Ty.store, k3, List.nil_append, hzs, Out.bind_ok, h8]⟩
  | .struct fs, .list xs, h, hl => by
    obtain ⟨kws, hk⟩ := settled_fields F fs {} xs h hl.2
    have hn : (kws.map Prod.fst).Nodup := by rw [hk.keys]; exact hl.1
    obtain ⟨ys, hys⟩ := hk.dump []
    refine ⟨.ofObject (insertAll kws []), fun c => ⟨.list ys, by simp [Ty.store, hys]⟩, ⟨insertAll_sorted Sorted.nil, wfMembers_iff.2 ?_⟩,
      fun hp => ⟨insertAll_sorted Sorted.nil, wfMembers_iff.2 ?_⟩, fun y hy c => ?_⟩
    · intro e he
      rcases mem_insertAll e he with h | h
      · exact hk.sound.1 e h
      · cases h
    · intro e he
      rcases mem_insertAll e he with h | h
      · exact hk.sound.2 hp e h
      · cases h
    · rw [Ty.as] at hy
      obtain ⟨r, hr, hy⟩ := Out.bind_eq_ok.1 hy
      cases r with
      | none =>
        cases hy
        obtain ⟨zs, hzs⟩ := hk.load (insertAll kws []) (find_insertAll hn) fs.defaults (defaults_length fs) _ (Prod.ext hr rfl) []
        refine ⟨.list zs, ?_⟩
        rw [Ty.store, show (fs.dump F {} (fs.load F {} (.ofObject (insertAll kws [])) fs.defaults).2 []) = .ok (insertAll kws [], zs) from hzs]
        rfl
      | some k => cases hy
theorem settled_tuple (F : Floats) : ∀ (ts : Tys) (xs : List CVal), ts.HasAll xs → ts.SteadyAll F xs →
    ∃ vs, (∀ c, ∃ ys, ts.storeAll F c xs = .ok (vs, ys)) ∧ (∀ v ∈ vs, v.Sound) ∧ (ts.PrintableAll F xs → ∀ v ∈ vs, v.Json) ∧
      ∀ ys, ts.asAll F vs = .ok ys → ∀ c, ∃ zs, ts.storeAll F c ys = .ok (vs, zs)
  | .nil, [], _, _ => ⟨[], fun _ => ⟨[], by simp [Tys.storeAll]⟩, by simp, by simp, fun ys h _ => by
      rw [Tys.asAll] at h; cases h; exact ⟨[], by simp [Tys.storeAll]⟩⟩
  | .nil, _ :: _, h, _ => h.elim
  | .cons _ _, [], h, _ => h.elim
  | .cons t ts, x :: xs, h, hl => by
    obtain ⟨v, hv⟩ := settled F t x h.1 hl.1
    obtain ⟨vs, h1, h2, h3, h4⟩ := settled_tuple F ts xs h.2 hl.2
    refine ⟨v :: vs, ?_, ?_, ?_, ?_⟩
    · intro c
      obtain ⟨y, hy⟩ := hv.stores c
      obtain ⟨ys, hys⟩ := h1 c
      exact ⟨y :: ys, by simp [Tys.storeAll, hy, hys]⟩
    · intro w hw; rcases List.mem_cons.1 hw with rfl | hw
      · exact hv.sound
      · exact h2 w hw
    · intro hp w hw; rcases List.mem_cons.1 hw with rfl | hw
      · exact hv.json hp.1
      · exact h3 hp.2 w hw
    · intro ys hy c
      rw [Tys.asAll] at hy
      obtain ⟨y, e1, hy⟩ := Out.bind_eq_ok.1 hy
      obtain ⟨ys', e2, hy⟩ := Out.bind_eq_ok.1 hy
      cases hy
      obtain ⟨z, hz⟩ := hv.again y e1 c
      obtain ⟨zs, hzs⟩ := h4 ys' e2 c
      exact ⟨z :: zs, by simp [Tys.storeAll, hz, hzs]⟩
theorem settled_nth (F : Floats) : ∀ (ts : Tys) (i : Nat) (x : CVal), ts.HasAlt i x → ts.SteadyNth F i x →
    ∃ v, (∀ c, ∃ y, ts.storeAlt F c i x = .ok (v, y)) ∧ v.Sound ∧ (ts.PrintableAlt F i x → v.Json) ∧
      ∀ y, ts.asNth F i v = .ok y → ∀ c, ∃ z, ts.storeAlt F c i y = .ok (v, z)
  | .nil, _, _, h, _ => h.elim
  | .cons t ts, 0, x, h, hl => by
    obtain ⟨v, hv⟩ := settled F t x h hl
    refine ⟨v, fun c => by simpa [Tys.storeAlt] using hv.stores c, hv.sound, fun hp => hv.json hp, fun y hy c => ?_⟩
    rw [Tys.asNth] at hy
    simpa [Tys.storeAlt] using hv.again y hy c
  | .cons t ts, i + 1, x, h, hl => by
    obtain ⟨v, hs, hso, hj, has⟩ := settled_nth F ts i x h hl
    refine ⟨v, fun c => by simpa [Tys.storeAlt] using hs c, hso, fun hp => hj hp, fun y hy c => ?_⟩
    rw [Tys.asNth] at hy
    simpa [Tys.storeAlt] using has y hy c
theorem settled_alt (F : Floats) : ∀ (ts : Tys) (i : Nat) (x : CVal), ts.HasAlt i x → ts.SteadyAlt F i x →
    ∃ v u, ts.get? i = some u ∧ (∀ c, ∃ y, ts.storeAlt F c i x = .ok (v, y)) ∧ v.Sound ∧ (ts.PrintableAlt F i x → v.Json) ∧
      ∀ j y, ts.asAny F j v = .ok y → ∃ z, y = .alt (j + i) z ∧ ∀ c, ∃ w, ts.storeAlt F c i z = .ok (v, w)
  | .nil, _, _, h, _ => h.elim
  | .cons t ts, 0, x, h, hl => by
    obtain ⟨v, hv⟩ := settled F t x h hl.1
    obtain ⟨y, hy⟩ := hv.stores .constLv
    have hi := hl.2 v y hy
    refine ⟨v, t, rfl, fun c => by simpa [Tys.storeAlt] using hv.stores c, hv.sound, fun hp => hv.json hp, fun j y hy => ?_⟩
    rw [Tys.asAny, hi, Out.bind_ok, if_pos rfl] at hy
    obtain ⟨z, hz, hy⟩ := Out.bind_eq_ok.1 hy
    cases hy
    exact ⟨z, rfl, fun c => by simpa [Tys.storeAlt] using hv.again z hz c⟩
  | .cons t ts, i + 1, x, h, hl => by
    obtain ⟨v, u, hu, hs, hso, hj, has⟩ := settled_alt F ts i x h hl.1
    have hf : t.is F v = .ok false := by
      obtain ⟨y, hy⟩ := hs .constLv
      rw [storeAlt_get F ts _ i x u hu] at hy
      exact hl.2 u v y hu hy
    refine ⟨v, u, hu, fun c => by simpa [Tys.storeAlt] using hs c, hso, fun hp => hj hp, fun j y hy => ?_⟩
    rw [Tys.asAny, hf, Out.bind_ok, if_neg (by simp)] at hy
    obtain ⟨z, rfl, hz⟩ := has (j + 1) y hy
    exact ⟨z, by rw [Nat.add_right_comm, Nat.add_assoc], fun c => by simpa [Tys.storeAlt] using hz c⟩
theorem settled_fields (F : Floats) : ∀ (fs : Fields) (st : NextState) (xs : List CVal), fs.Has xs → fs.Steady F xs → ∃ kws, fs.Settles F st xs kws
  | .done, _, [], _, _ => ⟨[], trivial⟩
  | .done, _, _ :: _, h, _ => h.elim
  | .opt rest, st, xs, h, hl => by
    unfold Fields.Has at h; unfold Fields.Steady at hl; unfold Fields.Settles; exact settled_fields F rest _ xs h hl
  | .key _ rest, st, xs, h, hl => by
    unfold Fields.Has at h; unfold Fields.Steady at hl; unfold Fields.Settles; exact settled_fields F rest _ xs h hl
  | .var name _ t rest, st, x :: xs, h, hl => by
    obtain ⟨v, hv⟩ := settled F t x h.1 hl.1
    obtain ⟨kws, hk⟩ := settled_fields F rest {} xs h.2 hl.2
    exact ⟨(st.keyFor name, v) :: kws, rfl, hv, hk⟩
  | .var .., _, [], h, _ => h.elim
end

mutual
/-- All values of a tidy type are steady. -/
theorem tidy_steady (F : Floats) : ∀ (t : Ty) (x : CVal), t.Tidy F → t.Has x → t.Steady F x
  | .user U, x, ht, hx => by unfold Ty.Tidy at ht; exact ht x (by simpa [Ty.Has] using hx)
  | .float f, .flt x, ht, hx => ht x hx
  | .enum E, .enum e, ht, hx => ht e hx
  | .nullable .optional t, .nothing, ht, _ => ht.1
  | .nullable .pointer t, .nothing, _, _ => trivial
  | .nullable .optional t, .just x, ht, hx => tidy_steady F t x ht.2 hx
  | .nullable .pointer t, .just x, ht, hx => tidy_steady F t x ht hx
  | .seq t, .list xs, ht, hx => fun x h => tidy_steady F t x ht (hx x h)
  | .set lt t, .list xs, ht, hx => fun x h => ht x (hx.1 x h)
  | .fixed n t, .list xs, ht, hx => fun x h => tidy_steady F t x ht (hx.2 x h)
  | .tuple ts, .list xs, ht, hx => ⟨ht.1, tidy_all F ts xs ht.2 hx⟩
  | .variant ts, .alt i x, ht, hx => ht i x hx
  | .map t, .map ms, ht, hx => fun e h => tidy_steady F t e.2 ht (hx.2 e h)
  | .struct fs, .list xs, ht, hx => ⟨ht.1, tidy_fields F fs xs ht.2 hx⟩
  | .bool, .bool _, _, _ | .int _, .int _, _, _ | .string, .str _, _, _ | .null, .null, _, _ | .json, .json _, _, _ | .jarray, .jarray _, _, _
  | .jobject, .jobject _, _, _ => trivial
theorem tidy_all (F : Floats) : ∀ (ts : Tys) (xs : List CVal), ts.Tidy F → ts.HasAll xs → ts.SteadyAll F xs
  | .nil, _, _, _ => trivial
  | .cons _ _, [], _, _ => trivial
  | .cons t ts, x :: xs, ht, hx => ⟨tidy_steady F t x ht.1 hx.1, tidy_all F ts xs ht.2 hx.2⟩
theorem tidy_fields (F : Floats) : ∀ (fs : Fields) (xs : List CVal), fs.Tidy F → fs.Has xs → fs.Steady F xs
  | .done, _, _, _ => trivial
  | .opt rest, xs, ht, hx => by unfold Fields.Has at hx; unfold Fields.Tidy at ht; unfold Fields.Steady; exact tidy_fields F rest xs ht hx
  | .key _ rest, xs, ht, hx => by unfold Fields.Has at hx; unfold Fields.Tidy at ht; unfold Fields.Steady; exact tidy_fields F rest xs ht hx
  | .var _ _ t rest, [], _, _ => trivial
  | .var _ _ t rest, x :: xs, ht, hx => ⟨tidy_steady F t x ht.1 hx.1, tidy_fields F rest xs ht.2 hx.2⟩
end

end Meojson
