import Verif.Spec.StoreWork
import Verif.Proofs.ConvertWork
import Verif.Proofs.Literal
import Verif.Proofs.MapOps

set_option autoImplicit false

namespace Meojson
open Work

theorem eachBothW_res {α β : Type} {also : α → Nat} {f : α → Work (β × α)} {g : α → Out (β × α)} (h : ∀ x, (f x).res = g x) :
    ∀ xs : List α, (eachBothW also f xs).res = eachBoth g xs
  | [] => rfl
  | x :: xs => by
    simp only [eachBothW, eachBoth, bind_res, h, eachBothW_res h xs]

variable (F : Floats)

mutual
theorem storeW_res : ∀ (t : Ty) (c : Cat) (x : CVal), (t.storeW F c x).res = t.store F c x
  | .json, c, x | .jarray, c, x | .jobject, c, x => by cases x <;> simp only [Ty.storeW, madeW] <;> split <;> rfl
  | .bool, c, x | .int _, c, x | .float _, c, x | .string, c, x | .null, c, x | .enum _, c, x | .user _, c, x => by cases x <;> rfl
  | .nullable w t, c, x => by
    cases x <;> first | rfl | (simp only [Ty.storeW, Ty.store, tick_res, bind_res, ret_res, storeW_res t]; done)
  | .seq t, c, x => by
    cases x <;> first | rfl | (simp only [Ty.storeW, Ty.store, tick_res, bind_res, ret_res, eachBothW_res (storeW_res t _)]; done)
  | .set _ t, c, x => by
    cases x <;> first | rfl | (simp only [Ty.storeW, Ty.store, tick_res, bind_res, ret_res, eachBothW_res (storeW_res t _)]; done)
  | .fixed _ t, c, x => by
    cases x <;> first | rfl | (simp only [Ty.storeW, Ty.store, tick_res, bind_res, ret_res, eachBothW_res (storeW_res t _)]; done)
  | .map t, c, x => by
    cases x <;> first | rfl | skip
    rename_i ms
    simp only [Ty.storeW, Ty.store, tick_res, bind_res, ret_res]
    rw [eachBothW_res (g := fun e : Bytes × CVal => (t.store F c.element e.2).bind fun r => .ok ((e.1, r.1), (e.1, r.2)))]
    intro e; simp only [bind_res, ret_res, storeW_res t]
  | .tuple ts, c, x => by
    cases x <;> first | rfl | (simp only [Ty.storeW, Ty.store, tick_res, bind_res, ret_res, storeAllW_res ts]; done)
  | .variant ts, c, x => by
    cases x <;> first | rfl | (simp only [Ty.storeW, Ty.store, tick_res, bind_res, ret_res, storeAltW_res ts]; done)
  | .struct fs, c, x => by
    cases x <;> first | rfl | (simp only [Ty.storeW, Ty.store, tick_res, bind_res, ret_res, fieldsDumpW_res fs]; done)
theorem storeAllW_res : ∀ (ts : Tys) (c : Cat) (xs : List CVal), (ts.storeAllW F c xs).res = ts.storeAll F c xs
  | .nil, c, [] => rfl
  | .nil, c, _ :: _ => rfl
  | .cons t ts, c, [] => rfl
  | .cons t ts, c, x :: xs => by
    simp only [Tys.storeAllW, Tys.storeAll, tick_res, bind_res, ret_res, storeW_res t, storeAllW_res ts]
theorem storeAltW_res : ∀ (ts : Tys) (c : Cat) (i : Nat) (x : CVal), (ts.storeAltW F c i x).res = ts.storeAlt F c i x
  | .nil, c, _, _ => rfl
  | .cons t ts, c, 0, x => by simp only [Tys.storeAltW, Tys.storeAlt, storeW_res t]
  | .cons t ts, c, i + 1, x => by simp only [Tys.storeAltW, Tys.storeAlt, storeAltW_res ts]
theorem fieldsDumpW_res : ∀ (fs : Fields) (st : NextState) (xs : List CVal) (m : List (Bytes × Value)), (fs.dumpW F st xs m).res = fs.dump F st xs m
  | .done, _, [], _ => rfl
  | .done, _, _ :: _, _ => rfl
  | .opt rest, st, xs, m => by simp only [Fields.dumpW, Fields.dump, fieldsDumpW_res rest]
  | .key k rest, st, xs, m => by simp only [Fields.dumpW, Fields.dump, fieldsDumpW_res rest]
  | .var _ _ _ _, _, [], _ => rfl
  | .var name _ t rest, st, x :: xs, m => by
    simp only [Fields.dumpW, Fields.dump, bind_res, storeW_res t, fieldsDumpW_res rest]
end

theorem bind_done {α β : Type} {w : Work α} {f : α → Work β} {b : β} (h : (w.bind f).res = .ok b) :
    ∃ a, w.res = .ok a ∧ (f a).res = .ok b ∧ (w.bind f).ticks = w.ticks + (f a).ticks := by
  unfold Work.bind at h ⊢
  split at h
  · rename_i a ha; exact ⟨a, ha, h, by rfl⟩
  · simp at h
  · simp at h

theorem weightAll_sum (vs : List Value) : Value.weightAll vs = (vs.map Value.weight).sum := by
  induction vs with
  | nil => rfl
  | cons v vs ih => simp [Value.weightAll, ih]

theorem weightMembers_sum (ms : List (Bytes × Value)) : Value.weightMembers ms = (ms.map fun e => e.1.length + e.2.weight).sum := by
  induction ms with
  | nil => rfl
  | cons e ms ih => obtain ⟨k, v⟩ := e; simp [Value.weightMembers, ih]

theorem eachBothW_bound {α β : Type} {K : Nat} {also : α → Nat} {f : α → Work (β × α)} {m : β → Nat} :
    ∀ (xs : List α) (_ : ∀ x ∈ xs, ∀ r, (f x).res = .ok r → (f x).ticks + 1 + also x ≤ K * m r.1) {rs : List β × List α}, (eachBothW also f xs).res = .ok rs →
      (eachBothW also f xs).ticks ≤ K * (rs.1.map m).sum
  | [], _, rs, _ => by simp [eachBothW, ret]
  | x :: xs, h, rs, hr => by
    obtain ⟨r, h1, h2, h3⟩ := bind_done hr
    obtain ⟨rs', h4, h5, h6⟩ := bind_done h2
    have hb := h x List.mem_cons_self r h1
    have ih := eachBothW_bound xs (fun y hy => h y (List.mem_cons_of_mem _ hy)) h4
    cases h5
    simp only [eachBothW] at h3 ⊢
    rw [h3, h6]
    simp only [List.map_cons, List.sum_cons, Nat.mul_add]; omega

theorem eachBothW_keys {also : Bytes × CVal → Nat} {f : Bytes × CVal → Work ((Bytes × Value) × (Bytes × CVal))} (hf : ∀ e r, (f e).res = .ok r → r.1.1 = e.1) :
    ∀ (ms : List (Bytes × CVal)) {rs : List (Bytes × Value) × List (Bytes × CVal)}, (eachBothW also f ms).res = .ok rs → rs.1.map Prod.fst = ms.map Prod.fst
  | [], rs, h => by cases h; rfl
  | e :: ms, rs, h => by
    obtain ⟨r, h1, h2, -⟩ := bind_done h
    obtain ⟨rs', h4, h5, -⟩ := bind_done h2
    cases h5
    simp [hf e r h1, eachBothW_keys hf ms h4]

theorem foldl_ofInit (l : List (Bytes × Value)) : ∀ m : List (Bytes × Value), l.foldl (fun m e => (RawObject.emplace e.1 e.2 m).1) m = ObjectData.ofInit l m := by
  induction l with
  | nil => intro m; rfl
  | cons e l ih => intro m; obtain ⟨k, v⟩ := e; simp only [List.foldl_cons, ObjectData.ofInit, ih]

theorem insertOrAssign_weight (k : Bytes) (v : Value) (m : List (Bytes × Value)) (h : ∀ x ∈ m, x.1 ≠ k) :
    Value.weightMembers (RawObject.insertOrAssign k v m) = k.length + v.weight + Value.weightMembers m := by
  induction m with
  | nil => simp [RawObject.insertOrAssign, Value.weightMembers]
  | cons a m ih =>
    obtain ⟨k', v'⟩ := a
    simp only [RawObject.insertOrAssign]
    split
    · simp [Value.weightMembers]
    · split
      · simp only [Value.weightMembers]
        rw [ih fun x hx => h x (List.mem_cons_of_mem _ hx)]; omega
      · rename_i h1 h2
        exfalso
        have h1 := (bytesLt_false_iff _ _).1 (Bool.eq_false_iff.2 h1)
        have h2 := (bytesLt_false_iff _ _).1 (Bool.eq_false_iff.2 h2)
        exact h (k', v') List.mem_cons_self (Std.le_antisymm h1 h2)

theorem made_bound {K : Nat} (hK : 1 < K) {r : Out (Value × CVal)} {y : Value × CVal} (h : (madeW r).res = .ok y) : (madeW r).ticks + K ≤ K * y.1.weight + 1 := by
  have h : r = .ok y := h
  subst h
  have := weight_pos y.1
  simp only [madeW]
  obtain ⟨w, hw⟩ : ∃ w, y.1.weight = w + 1 := ⟨_, (Nat.sub_add_cancel this).symm⟩
  rw [hw, Nat.mul_add]
  have : w ≤ K * w := Nat.le_mul_of_pos_left w (by omega)
  omega

theorem whole_bound {K a w : Nat} (hK : 1 < K) (hw : 1 ≤ w) (h : a ≤ w) : a + K ≤ K * w + 1 := by
  obtain ⟨u, rfl⟩ : ∃ u, w = u + 1 := ⟨_, (Nat.sub_add_cancel hw).symm⟩
  have : u ≤ K * u := Nat.le_mul_of_pos_left u (by omega)
  rw [Nat.mul_add]; omega

theorem neat_lt {K : Nat} {t : Ty} (h : t.Neat K) : t.layers < K := by
  cases t <;> simp only [Ty.Neat, Ty.layers] at * <;> first | exact h | exact h.1

theorem array_bound {K ticks : Nat} {vs : List Value} (hK : 1 < K) (h : ticks ≤ K * Value.weightAll vs) : ticks + 1 + K ≤ K * (Value.ofArray vs).weight + 1 := by
  simp only [Value.ofArray, Value.weight, Nat.mul_add]; omega

theorem object_bound {K ticks : Nat} {ms : List (Bytes × Value)} (hK : 1 < K) (h : ticks ≤ K * Value.weightMembers ms) : ticks + 1 + K ≤ K * (Value.ofObject ms).weight + 1 := by
  simp only [Value.ofObject, Value.weight, Nat.mul_add]; omega

theorem eachOf_ok_map {α β : Type} {f : α → Out β} {g : α → β} (hf : ∀ a b, f a = .ok b → b = g a) : ∀ {xs : List α} {ys : List β}, eachOf f xs = .ok ys → ys = xs.map g
  | [], ys, h => by cases h; rfl
  | x :: xs, ys, h => by
    obtain ⟨y, h1, h2⟩ := (Out.bind_eq_ok).1 h
    obtain ⟨ys', h3, h4⟩ := (Out.bind_eq_ok).1 h2
    cases h4
    simp [hf x y h1, ← eachOf_ok_map hf h3]

theorem copied_same {v w : Value} (h : v.copied = .ok w) : w = v := by
  unfold Value.copied at h
  split at h
  · cases h; rfl
  · cases h

/-! ### One element, one member, one wrapper -/

variable {F} {K : Nat}

/-- What is proved by induction over the type. -/
def Cheap (K : Nat) (layers : Nat) (w : Work (Value × CVal)) : Prop := ∀ r, w.res = .ok r → w.ticks + K ≤ K * r.1.weight + layers

theorem cheap_json (hK : 1 < K) (c : Cat) (v : Value) : Cheap K 1 (Ty.json.storeW F c (.json v)) := by
  intro r h
  have hr : Ty.json.store F c (.json v) = .ok r := by rw [← storeW_res]; exact h
  have hv : r.1.weight = v.weight := by
    simp only [Ty.store] at hr
    split at hr
    · cases hr; rfl
    · obtain ⟨w, h1, h2⟩ := (Out.bind_eq_ok).1 hr
      cases h2
      rw [copied_same h1]
  have := weight_pos v
  rw [hv]
  simp only [Ty.storeW]
  split
  · exact whole_bound hK this this
  · exact whole_bound hK this (Nat.le_refl _)

theorem cheap_jarray (hK : 1 < K) (c : Cat) (vs : List Value) : Cheap K 1 (Ty.jarray.storeW F c (.jarray vs)) := by
  intro r h
  have hr : Ty.jarray.store F c (.jarray vs) = .ok r := by rw [← storeW_res]; exact h
  have hv : r.1 = .ofArray vs := by
    simp only [Ty.store] at hr
    split at hr
    · cases hr; rfl
    · obtain ⟨w, h1, h2⟩ := (Out.bind_eq_ok).1 hr
      cases h2
      rw [eachOf_ok_map (g := id) (fun a b h => copied_same h) h1, List.map_id]
  rw [hv]
  simp only [Ty.storeW, Value.ofArray, Value.weight]
  split <;> exact whole_bound hK (by omega) (by simp)

theorem cheap_jobject (hK : 1 < K) (c : Cat) (ms : List (Bytes × Value)) : Cheap K 1 (Ty.jobject.storeW F c (.jobject ms)) := by
  intro r h
  have hr : Ty.jobject.store F c (.jobject ms) = .ok r := by rw [← storeW_res]; exact h
  have hv : r.1 = .ofObject ms := by
    simp only [Ty.store] at hr
    split at hr
    · cases hr; rfl
    · obtain ⟨w, h1, h2⟩ := (Out.bind_eq_ok).1 hr
      cases h2
      rw [eachOf_ok_map (g := id) (fun a b h => ?_) h1, List.map_id]
      obtain ⟨w', h3, h4⟩ := (Out.bind_eq_ok).1 h
      cases h4
      rw [copied_same h3]; rfl
  rw [hv]
  simp only [Ty.storeW, Value.ofObject, Value.weight]
  split <;> exact whole_bound hK (by omega) (by simp)

theorem cheap_string (hK : 1 < K) (c : Cat) (s : Bytes) : Cheap K 1 (Ty.string.storeW F c (.str s)) := by
  intro r h
  cases h
  simp only [Ty.storeW, Value.weight]
  split <;> exact whole_bound hK (by omega) (by omega)

theorem cheap_seq {t : Ty} {c' : Cat} {xs : List CVal} (hK : t.layers < K) (ih : ∀ x ∈ xs, Cheap K t.layers (t.storeW F c' x)) {l : Nat} (hl : 1 ≤ l)  :
    Cheap K l ((eachBothW (fun _ => 0) (t.storeW F c') xs).bind fun r => ret (.ok (.ofArray r.1, .list r.2))).tick := by
  intro r h
  obtain ⟨rs, h1, h2, h3⟩ := bind_done h
  cases h2
  have hb := eachBothW_bound (K := K) (m := Value.weight) xs (fun x hx r hr => by have := ih x hx r hr; omega) h1
  rw [← weightAll_sum] at hb
  have h0 : 0 < t.layers := by cases t <;> simp [Ty.layers]
  have := array_bound (by omega) hb
  have h3 : _ = _ + 0 := h3
  simp only [Work.tick]
  rw [h3]
  omega

theorem cheap_map {t : Ty} {c' : Cat} {ms : List (Bytes × CVal)} (hK : t.layers < K) (hs : (ms.map Prod.fst).Nodup) (ih : ∀ e ∈ ms, Cheap K t.layers (t.storeW F c' e.2)) :
    Cheap K 1 ((eachBothW (fun e => e.1.length) (fun e : Bytes × CVal => (t.storeW F c' e.2).bind fun r => ret (.ok ((e.1, r.1), (e.1, r.2)))) ms).bind fun r =>
      ret (.ok (.ofObject (r.1.foldl (fun m e => (RawObject.emplace e.1 e.2 m).1) []), .map r.2))).tick := by
  intro r h
  obtain ⟨rs, h1, h2, h3⟩ := bind_done h
  cases h2
  have h0 : 0 < t.layers := by cases t <;> simp [Ty.layers]
  have hb := eachBothW_bound (K := K) (m := fun e : Bytes × Value => e.1.length + e.2.weight) ms (fun e he r hr => by
    obtain ⟨y, h4, h5, h6⟩ := bind_done hr
    have := ih e he y h4
    cases h5
    have h6 : _ = _ + 0 := h6
    rw [h6]
    have h7 : e.1.length ≤ K * e.1.length := Nat.le_mul_of_pos_left _ (by omega)
    simp only [Nat.mul_add]; omega) h1
  have hk := eachBothW_keys (fun e r hr => by obtain ⟨y, h4, h5, h6⟩ := bind_done hr; cases h5; rfl) ms h1
  rw [← weightMembers_sum, ← Nat.add_zero (Value.weightMembers _)] at hb
  have hw := (ofInit_weight rs.1 []).2 (by rw [hk]; exact hs) (by simp)
  simp only [Value.weightMembers] at hw
  rw [← hw] at hb
  have := object_bound (by omega) hb
  have h3 : _ = _ + 0 := h3
  simp only [Work.tick]
  rw [h3]
  simp only [foldl_ofInit]
  omega

mutual
theorem storeW_cheap : ∀ (t : Ty) (c : Cat) (x : CVal), t.Neat K → t.Has x → Cheap K t.layers (t.storeW F c x)
  | .json, c, x, h, hx => by cases x <;> first | exact hx.elim | exact cheap_json h c _
  | .jarray, c, x, h, hx => by cases x <;> first | exact hx.elim | exact cheap_jarray h c _
  | .jobject, c, x, h, hx => by cases x <;> first | exact hx.elim | exact cheap_jobject h c _
  | .string, c, x, h, hx => by cases x <;> first | exact hx.elim | exact cheap_string h c _
  | .bool, c, x, h, hx => by cases x <;> exact fun r hr => made_bound h hr
  | .int _, c, x, h, hx => by cases x <;> exact fun r hr => made_bound h hr
  | .float _, c, x, h, hx => by cases x <;> exact fun r hr => made_bound h hr
  | .null, c, x, h, hx => by cases x <;> exact fun r hr => made_bound h hr
  | .enum _, c, x, h, hx => by cases x <;> exact fun r hr => made_bound h hr
  | .user U, c, x, h, hx => by
    intro r hr
    have := weight_pos r.1
    exact whole_bound (a := 1) h this this
  | .nullable w t, c, x, h, hx => by
    cases x <;> first | exact hx.elim | skip
    · intro r hr
      cases hr
      simp only [Ty.storeW, Value.null, Value.weight, Ty.layers]
      have : K * (1 + List.length ([] : Bytes)) = K := by simp
      rw [this]; omega
    · rename_i x
      intro r hr
      obtain ⟨y, h1, h2, h3⟩ := bind_done hr
      cases h2
      have := storeW_cheap t (c.content w) x h.2 hx y h1
      have h3 : _ = _ + 0 := h3
      simp only [Ty.storeW, Work.tick, Ty.layers]
      rw [h3]; omega
  | .variant ts, c, x, h, hx => by
    cases x <;> first | exact hx.elim | skip
    rename_i i x
    intro r hr
    obtain ⟨y, h1, h2, h3⟩ := bind_done hr
    cases h2
    have := storeAltW_cheap ts c.part i x h.2 hx y h1
    have h3 : _ = _ + 0 := h3
    simp only [Ty.storeW, Work.tick, Ty.layers]
    rw [h3]; omega
  | .seq t, c, x, h, hx => by
    cases x <;> first | exact hx.elim | skip
    exact cheap_seq (neat_lt h.2) (fun x hm => storeW_cheap t c.element x h.2 (hx x hm)) (Nat.le_refl _)
  | .set _ t, c, x, h, hx => by
    cases x <;> first | exact hx.elim | skip
    exact cheap_seq (neat_lt h.2) (fun x hm => storeW_cheap t c.setElement x h.2 (hx.1 x hm)) (Nat.le_refl _)
  | .fixed _ t, c, x, h, hx => by
    cases x <;> first | exact hx.elim | skip
    exact cheap_seq (neat_lt h.2) (fun x hm => storeW_cheap t c.part x h.2 (hx.2 x hm)) (Nat.le_refl _)
  | .map t, c, x, h, hx => by
    cases x <;> first | exact hx.elim | skip
    exact cheap_map (neat_lt h.2) (RawObject.Sorted.nodup hx.1) (fun e hm => storeW_cheap t c.element e.2 h.2 (hx.2 e hm))
  | .tuple ts, c, x, h, hx => by
    cases x <;> first | exact hx.elim | skip
    rename_i xs
    intro r hr
    obtain ⟨y, h1, h2, h3⟩ := bind_done hr
    cases h2
    have := array_bound h.1 (storeAllW_cheap ts c.part xs h.2 hx y h1)
    have h3 : _ = _ + 0 := h3
    simp only [Ty.storeW, Work.tick, Ty.layers]
    rw [h3]; omega
  | .struct fs, c, x, h, hx => by
    cases x <;> first | exact hx.elim | skip
    rename_i xs
    intro r hr
    obtain ⟨y, h1, h2, h3⟩ := bind_done hr
    cases h2
    have hb := dumpW_cheap fs {} xs [] h.1 h.2.2 hx h.2.1 (by simp) y h1
    simp only [Value.weightMembers, Nat.mul_zero, Nat.add_zero] at hb
    have := object_bound h.1 hb
    have h3 : _ = _ + 0 := h3
    simp only [Ty.storeW, Work.tick, Ty.layers]
    rw [h3]; omega
theorem storeAllW_cheap : ∀ (ts : Tys) (c : Cat) (xs : List CVal), ts.Neat K → ts.HasAll xs → ∀ r, (ts.storeAllW F c xs).res = .ok r →
    (ts.storeAllW F c xs).ticks ≤ K * Value.weightAll r.1
  | .nil, c, [], _, _, r, _ => Nat.zero_le _
  | .nil, c, _ :: _, _, hx, _, _ => hx.elim
  | .cons _ _, c, [], _, hx, _, _ => hx.elim
  | .cons t ts, c, x :: xs, h, hx, r, hr => by
    obtain ⟨y, h1, h2, h3⟩ := bind_done hr
    obtain ⟨ys, h4, h5, h6⟩ := bind_done h2
    cases h5
    have := storeW_cheap t c x h.1 hx.1 y h1
    have := storeAllW_cheap ts c xs h.2 hx.2 ys h4
    have := neat_lt h.1
    have h6 : _ = _ + 0 := h6
    simp only [Tys.storeAllW]
    rw [h3]
    simp only [Work.tick] at h6 ⊢
    rw [h6]
    simp only [Value.weightAll, Nat.mul_add]; omega
theorem storeAltW_cheap : ∀ (ts : Tys) (c : Cat) (i : Nat) (x : CVal), ts.Neat K → ts.HasAlt i x → Cheap K ts.layers (ts.storeAltW F c i x)
  | .nil, _, _, _, _, hx => hx.elim
  | .cons t ts, c, 0, x, h, hx => fun r hr => by
    have := storeW_cheap t c x h.1 hx r hr
    simp only [Tys.storeAltW, Tys.layers]; omega
  | .cons t ts, c, i + 1, x, h, hx => fun r hr => by
    have := storeAltW_cheap ts c i x h.2 hx r hr
    simp only [Tys.storeAltW, Tys.layers]; omega
theorem dumpW_cheap : ∀ (fs : Fields) (st : NextState) (xs : List CVal) (m : List (Bytes × Value)), 1 < K → fs.Neat K → fs.Has xs →
    ((fs.membersFrom st.isOptional st.overrideKey).map (·.key)).Nodup → (∀ e ∈ m, e.1 ∉ (fs.membersFrom st.isOptional st.overrideKey).map (·.key)) →
    ∀ r, (fs.dumpW F st xs m).res = .ok r → (fs.dumpW F st xs m).ticks + K * Value.weightMembers m ≤ K * Value.weightMembers r.1
  | .done, _, [], m, _, _, _, _, _, r, hr => by cases hr; simp [Fields.dumpW, ret]
  | .done, _, _ :: _, m, _, _, hx, _, _, r, hr => hx.elim
  | .opt rest, st, xs, m, hK, h, hx, hn, hm, r, hr => dumpW_cheap rest { st with isOptional := true } xs m hK h hx hn hm r hr
  | .key k rest, st, xs, m, hK, h, hx, hn, hm, r, hr => dumpW_cheap rest { st with overrideKey := some k } xs m hK h hx hn hm r hr
  | .var _ _ _ _, _, [], m, _, _, hx, _, _, r, hr => hx.elim
  | .var name d t rest, st, x :: xs, m, hK, h, hx, hn, hm, r, hr => by
    obtain ⟨y, h1, h2, h3⟩ := bind_done hr
    obtain ⟨ys, h4, h5, h6⟩ := bind_done h2
    cases h5
    have hk : (Fields.var name d t rest).membersFrom st.isOptional st.overrideKey = ⟨st.keyFor name, st.isOptional, t⟩ :: rest.membersFrom false none := by
      cases ho : st.overrideKey <;> simp [Fields.membersFrom, NextState.keyFor, ho]
    rw [hk] at hn hm
    simp only [List.map_cons, List.nodup_cons] at hn hm
    have hi := insertOrAssign_weight (st.keyFor name) y.1 m (fun e he hc => hm e he (by rw [hc]; exact List.mem_cons_self))
    have ha := storeW_cheap t .constLv x h.1 hx.1 y h1
    have hb := dumpW_cheap rest {} xs _ hK h.2 hx.2 hn.2 (fun e he => by
      rcases RawObject.mem_insertOrAssign _ _ _ e he with rfl | he
      · exact hn.1
      · exact fun hc => hm e he (List.mem_cons_of_mem _ hc)) ys h4
    have hl := neat_lt h.1
    rw [hi] at hb
    simp only [Fields.dumpW]
    rw [h3, h6]
    have : (st.keyFor name).length ≤ K * (st.keyFor name).length := Nat.le_mul_of_pos_left _ (by omega)
    simp only [Nat.mul_add] at hb ⊢; omega
end

/-! ### Moving -/

theorem eachBothW_moved {f : CVal → Work (Value × CVal)} : ∀ (xs : List CVal), (∀ x ∈ xs, (f x).ticks + 1 ≤ 2 * x.pieces) →
    (eachBothW (fun _ => 0) f xs).ticks ≤ 2 * CVal.piecesAll xs
  | [], _ => Nat.zero_le _
  | x :: xs, h => by
    have h1 := h x List.mem_cons_self
    have h2 := eachBothW_moved xs (fun y hy => h y (List.mem_cons_of_mem _ hy))
    simp only [eachBothW, CVal.piecesAll, Work.bind]
    cases (f x).res <;> (try cases (eachBothW (fun _ => 0) f xs).res) <;> simp only [] <;> omega

theorem bind_ret_ticks {α β : Type} (w : Work α) (f : α → Out β) : (w.bind fun a => ret (f a)).ticks = w.ticks := by
  unfold Work.bind; cases w.res <;> simp [ret]

theorem bind_most {α β : Type} {n : Nat} (w : Work α) (f : α → Work β) (h : ∀ a, (f a).ticks ≤ n) : (w.bind f).ticks ≤ w.ticks + n := by
  unfold Work.bind
  cases w.res with
  | ok a => exact Nat.add_le_add_left (h a) _
  | throw e => exact Nat.le_add_right _ _
  | ub => exact Nat.le_add_right _ _

mutual
theorem storeW_moved : ∀ (t : Ty) (x : CVal), t.Carried → t.Has x → (t.storeW F .rv x).ticks + 1 ≤ 2 * x.pieces
  | .json, x, _, hx => by cases x <;> first | exact hx.elim | exact Nat.le_refl 2
  | .jarray, x, _, hx => by cases x <;> first | exact hx.elim | exact Nat.le_refl 2
  | .jobject, x, _, hx => by cases x <;> first | exact hx.elim | exact Nat.le_refl 2
  | .string, x, _, hx => by cases x <;> first | exact hx.elim | exact Nat.le_refl 2
  | .null, x, _, hx => by cases x <;> first | exact hx.elim | exact Nat.le_refl 2
  | .bool, _, h, _ | .int _, _, h, _ | .float _, _, h, _ | .enum _, _, h, _ | .user _, _, h, _ | .set _ _, _, h, _ | .map _, _, h, _ | .struct _, _, h, _ => h.elim
  | .nullable w t, x, h, hx => by
    cases x <;> first | exact hx.elim | skip
    · exact Nat.le_refl 2
    · rename_i x
      have := storeW_moved t x h hx
      have hc : Cat.content w .rv = .rv := by cases w <;> rfl
      simp only [Ty.storeW, Work.tick, bind_ret_ticks, hc, CVal.pieces]; omega
  | .seq t, x, h, hx => by
    cases x <;> first | exact hx.elim | skip
    rename_i xs
    have := eachBothW_moved xs (fun x hm => storeW_moved t x h (hx x hm))
    simp only [Ty.storeW, Work.tick, bind_ret_ticks, Cat.element, CVal.pieces]; omega
  | .fixed n t, x, h, hx => by
    cases x <;> first | exact hx.elim | skip
    rename_i xs
    have := eachBothW_moved xs (fun x hm => storeW_moved t x h (hx.2 x hm))
    simp only [Ty.storeW, Work.tick, bind_ret_ticks, Cat.part, CVal.pieces]; omega
  | .tuple ts, x, h, hx => by
    cases x <;> first | exact hx.elim | skip
    rename_i xs
    have := storeAllW_moved ts xs h hx
    simp only [Ty.storeW, Work.tick, bind_ret_ticks, Cat.part, CVal.pieces]; omega
  | .variant ts, x, h, hx => by
    cases x <;> first | exact hx.elim | skip
    rename_i i x
    have := storeAltW_moved ts i x h hx
    simp only [Ty.storeW, Work.tick, bind_ret_ticks, Cat.part, CVal.pieces]; omega
theorem storeAllW_moved : ∀ (ts : Tys) (xs : List CVal), ts.Carried → ts.HasAll xs → (ts.storeAllW F .rv xs).ticks ≤ 2 * CVal.piecesAll xs
  | .nil, [], _, _ => Nat.zero_le _
  | .nil, _ :: _, _, hx => hx.elim
  | .cons _ _, [], _, hx => hx.elim
  | .cons t ts, x :: xs, h, hx => by
    have h1 := storeW_moved t x h.1 hx.1
    have h2 := storeAllW_moved ts xs h.2 hx.2
    simp only [Tys.storeAllW, CVal.piecesAll]
    have := bind_most (n := (ts.storeAllW F .rv xs).ticks + 1) (t.storeW F .rv x) (fun r => ((ts.storeAllW F .rv xs).bind fun rs => ret (.ok (r.1 :: rs.1, r.2 :: rs.2))).tick)
      (fun a => by simp only [Work.tick, bind_ret_ticks]; omega)
    omega
theorem storeAltW_moved : ∀ (ts : Tys) (i : Nat) (x : CVal), ts.Carried → ts.HasAlt i x → (ts.storeAltW F .rv i x).ticks + 1 ≤ 2 * x.pieces
  | .nil, _, _, _, hx => hx.elim
  | .cons t ts, 0, x, h, hx => storeW_moved t x h.1 hx
  | .cons t ts, i + 1, x, h, hx => storeAltW_moved ts i x h.2 hx
end

theorem bind_flat {α β : Type} {r : Work α} {f : α → Work β} (h : r.depth = 0) (h' : ∀ a, (f a).depth = 0) : (r.bind f).depth = 0 := by
  rcases hr : r.res with a | e | _ <;> simp only [Work.bind, hr]
  · simp [h, h' a]
  · exact h
  · exact h

theorem eachBothW_flat {α β : Type} {also : α → Nat} {f : α → Work (β × α)} (h : ∀ x, (f x).depth = 0) : ∀ xs : List α, (eachBothW also f xs).depth = 0
  | [] => rfl
  | x :: xs => bind_flat (h x) fun _ => bind_flat (eachBothW_flat h xs) fun _ => rfl

mutual
theorem storeW_flat : ∀ (t : Ty) (c : Cat) (x : CVal), (t.storeW F c x).depth = 0
  | .json, c, x | .jarray, c, x | .jobject, c, x => by cases x <;> simp only [Ty.storeW, madeW] <;> split <;> rfl
  | .bool, c, x | .int _, c, x | .float _, c, x | .string, c, x | .null, c, x | .enum _, c, x | .user _, c, x => by cases x <;> rfl
  | .nullable w t, c, x => by
    cases x <;> first | rfl | (simp only [Ty.storeW, Work.tick]; exact bind_flat (storeW_flat t _ _) fun _ => rfl)
  | .seq t, c, x | .set _ t, c, x | .fixed _ t, c, x => by
    cases x <;> first | rfl | (simp only [Ty.storeW, Work.tick]; exact bind_flat (eachBothW_flat (storeW_flat t _) _) fun _ => rfl)
  | .map t, c, x => by
    cases x <;> first | rfl | (simp only [Ty.storeW, Work.tick]; exact bind_flat (eachBothW_flat (fun e => bind_flat (storeW_flat t _ _) fun _ => rfl) _) fun _ => rfl)
  | .tuple ts, c, x => by
    cases x <;> first | rfl | (simp only [Ty.storeW, Work.tick]; exact bind_flat (storeAllW_flat ts _ _) fun _ => rfl)
  | .variant ts, c, x => by
    cases x <;> first | rfl | (simp only [Ty.storeW, Work.tick]; exact bind_flat (storeAltW_flat ts _ _ _) fun _ => rfl)
  | .struct fs, c, x => by
    cases x <;> first | rfl | (simp only [Ty.storeW, Work.tick]; exact bind_flat (fieldsDumpW_flat fs _ _ _) fun _ => rfl)
theorem storeAllW_flat : ∀ (ts : Tys) (c : Cat) (xs : List CVal), (ts.storeAllW F c xs).depth = 0
  | .nil, c, [] => rfl
  | .nil, c, _ :: _ => rfl
  | .cons t ts, c, [] => rfl
  | .cons t ts, c, x :: xs => by
    simp only [Tys.storeAllW]; exact bind_flat (storeW_flat t _ _) fun _ => (by simp only [Work.tick]; exact bind_flat (storeAllW_flat ts c xs) fun _ => rfl)
theorem storeAltW_flat : ∀ (ts : Tys) (c : Cat) (i : Nat) (x : CVal), (ts.storeAltW F c i x).depth = 0
  | .nil, c, _, _ => rfl
  | .cons t ts, c, 0, x => by simp only [Tys.storeAltW]; exact storeW_flat t c x
  | .cons t ts, c, i + 1, x => by simp only [Tys.storeAltW]; exact storeAltW_flat ts c i x
theorem fieldsDumpW_flat : ∀ (fs : Fields) (st : NextState) (xs : List CVal) (m : List (Bytes × Value)), (fs.dumpW F st xs m).depth = 0
  | .done, _, [], _ => rfl
  | .done, _, _ :: _, _ => rfl
  | .opt rest, st, xs, m => by simp only [Fields.dumpW]; exact fieldsDumpW_flat rest _ xs m
  | .key k rest, st, xs, m => by simp only [Fields.dumpW]; exact fieldsDumpW_flat rest _ xs m
  | .var _ _ _ _, _, [], _ => rfl
  | .var name _ t rest, st, x :: xs, m => by
    simp only [Fields.dumpW]; exact bind_flat (storeW_flat t _ x) fun _ => bind_flat (fieldsDumpW_flat rest _ xs _) fun _ => rfl
end

end Meojson
