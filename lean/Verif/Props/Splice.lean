import Verif.Proofs.Splice
import Verif.Props.Edit
import Verif.Props.Parse

/-!
# C108: a value in a text can be replaced in the text
-/

set_option autoImplicit false

namespace Meojson
open Spec RawObject Mem Stores

theorem follow_part {α : Type} {f : Value → Value.Mut α} {y w : Value} {o : Out α} (hf : f w = (y, o)) : ∀ {p : List Sel} {v : Value}, v.Sound → getAt v p = some w → v.follow p f = (setAt v p y, o)
  | [], _, _, h => by cases h; exact hf
  | s :: p, v, hv, h => by
    match v, s, h with
    | .arr .array vs, .pos i, h =>
      rw [getAt] at h
      cases hi : vs[i]? with
      | none => simp [hi] at h
      | some x =>
        rw [hi] at h
        obtain ⟨hl, he⟩ := List.getElem?_eq_some_iff.1 hi
        have hsplit : vs = vs.take i ++ x :: vs.drop (i + 1) := by rw [← he, List.cons_getElem_drop_succ, List.take_append_drop]
        have hlen : (vs.take i).length = i := by simp; omega
        have e := (((C53_array _ hv).1 vs (.inl rfl)).2.1 _ _ _ hsplit).2
        rw [hlen] at e
        have hx : x.Sound := by
          cases sound_shape hv with
          | array _ h => exact h x (List.mem_of_getElem? hi)
        rw [Value.follow, e, setAt]
        simp only [follow_part hf hx h]
        refine Prod.ext (congrArg (Value.arr .array) ?_) rfl
        rw [List.modify_eq_set_getElem?, hi]
        rfl
    | .obj .object ms, .key k, h =>
      rw [getAt] at h
      cases hi : ms.lookup k with
      | none => simp [hi] at h
      | some x =>
        rw [hi] at h
        have hm := mem_of_lookup hi
        have hs : Sorted ms ∧ ∀ e ∈ ms, e.2.Sound := by
          cases sound_shape hv with
          | object _ h1 h2 => exact ⟨h1, h2⟩
        obtain ⟨ms', x', e, hs', hx', h1, _, h2⟩ := (C46_index_key _ hv k).2.1 ms rfl
        cases h1 x hm
        rw [Value.follow, e, setAt]
        simp only [follow_part hf (hs.2 _ hm) h]
        refine Prod.ext (congrArg (Value.obj .object) ?_) rfl
        have hr : Sorted (ms.map fun m => if m.1 = k then (m.1, setAt m.2 p y) else m) := by
          have := hs.1
          unfold Sorted at this ⊢
          rw [List.pairwise_map]
          exact this.imp fun {a b} h => by split <;> split <;> exact h
        refine sorted_ext (insertOrAssign_sorted hs' _ _) hr fun z => ?_
        rw [find_insertOrAssign]
        by_cases hz : z = k
        · subst hz
          rw [if_pos rfl]
          exact ((find_eq_some hr _ _).2 (List.mem_map.2 ⟨_, hm, by simp⟩)).symm
        · rw [if_neg hz]
          refine Option.ext fun u => ?_
          rw [find_eq_some hs', find_eq_some hr, h2 _ hz, List.mem_map]
          constructor
          · exact fun h => ⟨_, h, by simp [hz]⟩
          · rintro ⟨m, h3, h4⟩
            split at h4
            · rename_i hk
              cases h4
              exact absurd hk hz
            · cases h4
              exact h3

private theorem replaced {D : Dialect} (hD : D.distinctKeys = true) {f : Text → Option Value} (acc : ∀ {s j}, JsonText D s j → f s = some j.toValue) {s : Text} {j : Doc} (hs : JsonText D s j)
    (snd : j.toValue.Sound) {v : Value} (hv : f s = some v) {p : List Sel} {x : Value} (hx : getAt v p = some x) :
    ∃ pre t post k, s = pre ++ t ++ post ∧ Val D t k ∧ k.toValue = x ∧
      ∀ u l e, Val D u l → (p = [] → l.isContainer = true) → e.on x = (l.toValue, .ok ()) →
        ∃ w, f (pre ++ u ++ post) = some w ∧ v.edits [(p, e)] = (w, .ok ()) ∧
          getAt w p = some l.toValue ∧ ∀ q, ¬ p <+: q → ¬ q <+: p → getAt w q = getAt v q := by
  rw [acc hs] at hv
  cases hv
  obtain ⟨hc, w₁, b, w₂, hw1, hb, hw2, rfl⟩ := hs
  obtain ⟨pre, t, post, k, rfl, h1, h2, h3⟩ := val_spot hD hb hx
  refine ⟨w₁ ++ pre, t, post ++ w₂, k, by simp, h1, h2, fun u l e hu hl he => ?_⟩
  obtain ⟨j', h4, h5, h6⟩ := h3 u l hu
  have hj : JsonText D (w₁ ++ pre ++ u ++ (post ++ w₂)) j' := ⟨h6 hl, w₁, _, w₂, hw1, h4, hw2, by simp⟩
  refine ⟨_, acc hj, ?_, ?_, fun q hq hq' => ?_⟩
  · rw [Value.edits, follow_part he snd hx, h5]
    rfl
  · rw [h5]; exact getAt_setAt hx
  · rw [h5]; exact getAt_setAt_other hx hq hq'

private theorem parsec_jsonc (a : Accel) {s : Text} {j : Doc} (h : JsonText jsonc s j) : parsec a.traits s = some j.toValue :=
  parser_complete (cfg := ⟨true, a.traits⟩) (accelOk a) (jsonc_reads h)

/-- Wherever a subscript path leads in a document read from a JSON text, the part it names stands in the text as a value; with the text of any other value in its place,
the text is parsed to the document with that part assigned to. (For the whole document the other value is to be an array or object.) -/
theorem C108_replace (a : Accel) (s : Text) (j : Doc) (hs : JsonText rfc8259 s j) (v : Value) (hv : parse a.traits s = some v) (p : List Sel) (x : Value) (hx : getAt v p = some x) :
    ∃ pre t post k, s = pre ++ t ++ post ∧ Val rfc8259 t k ∧ k.toValue = x ∧
      ∀ u l, Val rfc8259 u l → (p = [] → l.isContainer = true) →
        ∃ w, parse a.traits (pre ++ u ++ post) = some w ∧ v.edits [(p, .assign l.toValue)] = (w, .ok ()) ∧
          getAt w p = some l.toValue ∧ ∀ q, ¬ p <+: q → ¬ q <+: p → getAt w q = getAt v q := by
  obtain ⟨_, _, _, _, _, h, _, _⟩ := id hs
  obtain ⟨pre, t, post, k, h1, h2, h3, h4⟩ := replaced rfl (C01_parse_accepts_json a _ _) hs (wf_sound (val_json rfl h)) hv hx
  exact ⟨pre, t, post, k, h1, h2, h3, fun u l hu hl => h4 u l _ hu hl rfl⟩

/-- The same for parsec and texts with comments and trailing commas: all of them stay where they are. -/
theorem C108_jsonc (a : Accel) (s : Text) (j : Doc) (hs : JsonText jsonc s j) (v : Value) (hv : parsec a.traits s = some v) (p : List Sel) (x : Value) (hx : getAt v p = some x) :
    ∃ pre t post k, s = pre ++ t ++ post ∧ Val jsonc t k ∧ k.toValue = x ∧
      ∀ u l, Val jsonc u l → (p = [] → l.isContainer = true) →
        ∃ w, parsec a.traits (pre ++ u ++ post) = some w ∧ v.edits [(p, .assign l.toValue)] = (w, .ok ()) ∧
          getAt w p = some l.toValue ∧ ∀ q, ¬ p <+: q → ¬ q <+: p → getAt w q = getAt v q := by
  obtain ⟨_, _, _, _, _, h, _, _⟩ := id hs
  obtain ⟨pre, t, post, k, h1, h2, h3, h4⟩ := replaced rfl (parsec_jsonc a) hs (wf_sound (val_json rfl h)) hv hx
  exact ⟨pre, t, post, k, h1, h2, h3, fun u l hu hl => h4 u l _ hu hl rfl⟩

/-- What dumps or format writes of any value fits into any such place, whatever the indents. -/
theorem C108_dumps (a : Accel) (s : Text) (j : Doc) (hs : JsonText rfc8259 s j) (v : Value) (hv : parse a.traits s = some v) (p : List Sel) (x : Value) (hx : getAt v p = some x) (hp : p ≠ []) :
    ∃ pre t post, s = pre ++ t ++ post ∧ ∀ (y : Value) (indent : Option Nat), y.Json →
      ∃ u w, y.dumps indent = .ok u ∧ parse a.traits (pre ++ u ++ post) = some w ∧ v.edits [(p, .assign y)] = (w, .ok ()) := by
  obtain ⟨pre, t, post, k, h1, -, -, h2⟩ := C108_replace a s j hs v hv p x hx
  refine ⟨pre, t, post, h1, fun y indent hy => ?_⟩
  obtain ⟨u, h3, l, h4, rfl⟩ := dumps_spells hy indent
  obtain ⟨w, h5, h6, -⟩ := h2 u l h4 fun h => absurd h hp
  exact ⟨u, w, h3, h5, h6⟩

example : parse none (ascii "{\"b\": [1, 2], \"a\":null}") = some (.obj .object [([0x61], .null), ([0x62], .arr .array [.ofInt 1, .ofInt 2])]) ∧
    getAt (.obj .object [([0x61], .null), ([0x62], .arr .array [.ofInt 1, .ofInt 2])]) [.key [0x62], .pos 1] = some (.ofInt 2) ∧
    parse none (ascii "{\"b\": [1, {}], \"a\":null}") = some (.obj .object [([0x61], .null), ([0x62], .arr .array [.ofInt 1, .obj .object []])]) := by decide +kernel

example : JsonText rfc8259 (ascii "[null]") (.arr [.null]) ∧ getAt (Doc.arr [.null]).toValue [.pos 0] = some .null :=
  ⟨⟨rfl, [], _, [], ws_nil, .arr (.last (w₁ := []) (w₂ := []) ws_nil .null ws_nil), ws_nil, rfl⟩, by simp [Doc.toValue, Doc.toValues, getAt]; rfl⟩

/-- What is put in has to be the text of one value: other text may be accepted and change more than the place. -/
theorem C108_needs_value : ∃ pre post u : Text, parse none (pre ++ ascii "1" ++ post) = some (.obj .object [([0x61], .ofInt 1), ([0x62], .null)]) ∧
    parse none (pre ++ u ++ post) = some (.obj .object [([0x61], .ofInt 1), ([0x62], .null), ([0x63], .null)]) :=
  ⟨ascii "{\"a\":", ascii ",\"b\":null}", ascii "1,\"c\":null", by decide +kernel⟩

/-! ### Taking out and adding -/

private theorem toValue_arr {k : Doc} {vs : List Value} (h : k.toValue = .arr .array vs) : ∃ js, k = .arr js ∧ js.map Doc.toValue = vs := by
  cases k with
  | arr js => rw [Doc.toValue, toValues_map] at h; cases h; exact ⟨js, rfl, rfl⟩
  | bool b => cases b <;> simp [Doc.toValue] at h
  | _ => simp [Doc.toValue] at h

private theorem toValue_obj {k : Doc} {ms : List (Bytes × Value)} (h : k.toValue = .obj .object ms) : ∃ ns, k = .obj ns ∧ ms = sortMembers (Doc.toMembers ns) := by
  cases k with
  | obj ns => rw [Doc.toValue] at h; cases h; exact ⟨ns, rfl, rfl⟩
  | bool b => cases b <;> simp [Doc.toValue] at h
  | _ => simp [Doc.toValue] at h

private theorem members_ext {ms ns : List (Bytes × Value)} (hm : Sorted ms) (hn : Sorted ns) (h : ∀ e, e ∈ ms ↔ e ∈ ns) : ms = ns := by
  refine sorted_ext hm hn fun k => Option.ext fun x => ?_
  rw [find_eq_some hm, find_eq_some hn, h]

private theorem val_keys {D : Dialect} (hD : D.distinctKeys = true) {t : Text} {ns : List (Text × Doc)} (h : Val D t (.obj ns)) : (ns.map Prod.fst).Nodup := by
  generalize e : Doc.obj ns = j at h
  cases h <;> cases e
  case objEmpty => simp
  case obj t h hk => exact hk hD

/-- What `parse` and `parsec` share here: the dialect `D` of the texts that `f` is certain to read. -/
private structure Reading (D : Dialect) (f : Text → Option Value) : Prop where
  distinct : D.distinctKeys = true
  ws : D.ws []
  reads : ∀ {s j}, JsonText D s j → f s = some j.toValue
  json : ∀ {t j}, Val D t j → j.toValue.Json

private theorem reading_parse (a : Accel) : Reading rfc8259 (parse a.traits) := ⟨rfl, ws_nil, C01_parse_accepts_json a _ _, val_json rfl⟩
private theorem reading_parsec (a : Accel) : Reading jsonc (parsec a.traits) := ⟨rfl, .nil, parsec_jsonc a, val_json rfl⟩

section
variable {D : Dialect} {f : Text → Option Value} (R : Reading D f) {s : Text} {j : Doc} (hs : JsonText D s j) {v : Value} (hv : f s = some v) {p : List Sel}
include R hs hv

private theorem cut_element {vs : List Value} (hx : getAt v p = some (.arr .array vs)) {i : Nat} (hi : i < vs.length) :
    ∃ pre cut post w, s = pre ++ cut ++ post ∧ f (pre ++ post) = some w ∧ v.edits [(p, .erasePos i)] = (w, .ok ()) := by
  obtain ⟨_, _, _, _, _, h, _, _⟩ := id hs
  obtain ⟨pre, t, post, k, rfl, h2, h3, h4⟩ := replaced R.distinct R.reads hs (wf_sound (R.json h)) hv hx
  obtain ⟨js, rfl, rfl⟩ := toValue_arr h3
  have snd := wf_sound (R.json h2)
  rw [h3] at snd
  rw [List.length_map] at hi
  have split : js = js.take i ++ js[i] :: js.drop (i + 1) := by rw [List.cons_getElem_drop_succ, List.take_append_drop]
  have len : ((js.take i).map Doc.toValue).length = i := by simp; omega
  rw [split] at h2
  obtain ⟨pre', cut, post', rfl, h5⟩ := val_cut_element R.ws h2
  have e := (((C53_array _ snd).1 _ (.inl rfl)).2.1 ((js.take i).map Doc.toValue) js[i].toValue ((js.drop (i + 1)).map Doc.toValue) (by
    rw [← List.map_cons, ← List.map_append, ← split])).1
  rw [len] at e
  obtain ⟨w, h6, h7, -⟩ := h4 _ _ (.erasePos i) h5 (fun _ => rfl) (by
    simp only [Edit.on, e, Out.bind, Doc.toValue, toValues_map, List.map_append])
  exact ⟨pre ++ pre', cut, post' ++ post, w, by simp, by simpa using h6, h7⟩

private theorem cut_member {ms : List (Bytes × Value)} (hx : getAt v p = some (.obj .object ms)) {k : Bytes} {y : Value} (hk : (k, y) ∈ ms) :
    ∃ pre cut post w, s = pre ++ cut ++ post ∧ f (pre ++ post) = some w ∧ v.edits [(p, .eraseKey k)] = (w, .ok ()) := by
  obtain ⟨_, _, _, _, _, h, _, _⟩ := id hs
  obtain ⟨pre, t, post, d, rfl, h2, h3, h4⟩ := replaced R.distinct R.reads hs (wf_sound (R.json h)) hv hx
  obtain ⟨ns, rfl, rfl⟩ := toValue_obj h3
  have snd := wf_sound (R.json h2)
  rw [h3] at snd
  have hn := val_keys R.distinct h2
  rw [(sortMembers_perm _).mem_iff, toMembers_eq_map, List.mem_map] at hk
  obtain ⟨⟨k0, j0⟩, hk, e⟩ := hk
  cases e
  obtain ⟨as, bs, rfl⟩ := List.append_of_mem hk
  obtain ⟨pre', cut, post', rfl, h5⟩ := val_cut_member R.ws h2
  obtain ⟨ms', b, e, -, hs', hm⟩ := ((C53_object _ snd k0).1 _ (.inl rfl)).2
  have keys : ∀ ls : List (Text × Doc), (Doc.toMembers ls).map Prod.fst = ls.map Prod.fst := fun ls => by rw [toMembers_eq_map, List.map_map]; rfl
  have eq : ms' = sortMembers (Doc.toMembers (as ++ bs)) := by
    refine members_ext hs' (sortMembers_sorted (by rw [keys]; exact val_keys R.distinct h5)) fun x => ?_
    rw [hm, (sortMembers_perm _).mem_iff, (sortMembers_perm _).mem_iff, toMembers_eq_map, toMembers_eq_map, List.mem_map, List.mem_map]
    rw [List.map_append, List.map_cons, List.nodup_append, List.nodup_cons] at hn
    obtain ⟨-, ⟨hb, -⟩, ha⟩ := hn
    constructor
    · rintro ⟨h7, m, h8, rfl⟩
      refine ⟨m, ?_, rfl⟩
      rcases List.mem_append.1 h8 with h8 | h8
      · exact List.mem_append.2 (.inl h8)
      · rcases List.mem_cons.1 h8 with rfl | h8
        · exact absurd rfl h7
        · exact List.mem_append.2 (.inr h8)
    · rintro ⟨m, h8, rfl⟩
      rcases List.mem_append.1 h8 with h8 | h8
      · exact ⟨ha _ (List.mem_map.2 ⟨_, h8, rfl⟩) _ List.mem_cons_self, m, List.mem_append.2 (.inl h8), rfl⟩
      · exact ⟨fun e => hb (List.mem_map.2 ⟨m, h8, e⟩), m, List.mem_append.2 (.inr (List.mem_cons_of_mem _ h8)), rfl⟩
  obtain ⟨w, h6, h7, -⟩ := h4 _ _ (.eraseKey k0) h5 (fun _ => rfl) (by
    simp only [Edit.on, e, Out.bind, Doc.toValue, eq])
  exact ⟨pre ++ pre', cut, post' ++ post, w, by simp, by simpa using h6, h7⟩

private theorem add_element {vs : List Value} (hx : getAt v p = some (.arr .array vs)) :
    ∃ pre post, s = pre ++ post ∧ ∀ u l, Val D u l → ∃ w, f (pre ++ (if vs = [] then u else 0x2c :: u) ++ post) = some w ∧ v.edits [(p, .emplaceBack l.toValue)] = (w, .ok ()) := by
  obtain ⟨_, _, _, _, _, h, _, _⟩ := id hs
  obtain ⟨pre, t, post, k, rfl, h2, h3, h4⟩ := replaced R.distinct R.reads hs (wf_sound (R.json h)) hv hx
  obtain ⟨js, rfl, rfl⟩ := toValue_arr h3
  have snd := wf_sound (R.json h2)
  rw [h3] at snd
  obtain ⟨pre', post', rfl, h5⟩ := val_more_element R.ws h2
  refine ⟨pre ++ pre', post' ++ post, by simp, fun u l hu => ?_⟩
  have e := ((C53_array _ snd).1 _ (.inl rfl)).1 l.toValue
  obtain ⟨w, h6, h7, -⟩ := h4 _ _ (.emplaceBack l.toValue) (h5 u l hu) (fun _ => rfl) (by
    simp only [Edit.on, e, Doc.toValue, toValues_map, List.map_append, List.map_cons, List.map_nil])
  exact ⟨w, by simpa [List.map_eq_nil_iff] using h6, h7⟩

private theorem add_member {ms : List (Bytes × Value)} (hx : getAt v p = some (.obj .object ms)) :
    ∃ pre post, s = pre ++ post ∧ ∀ kt k u l, D.str kt k → Val D u l → (∀ y, (k, y) ∉ ms) →
      ∃ w, f (pre ++ (if ms = [] then kt ++ 0x3a :: u else 0x2c :: (kt ++ 0x3a :: u)) ++ post) = some w ∧ v.edits [(p, .emplaceKey k l.toValue)] = (w, .ok ()) := by
  obtain ⟨_, _, _, _, _, h, _, _⟩ := id hs
  obtain ⟨pre, t, post, d, rfl, h2, h3, h4⟩ := replaced R.distinct R.reads hs (wf_sound (R.json h)) hv hx
  obtain ⟨ns, rfl, rfl⟩ := toValue_obj h3
  have snd := wf_sound (R.json h2)
  rw [h3] at snd
  obtain ⟨pre', post', rfl, h5⟩ := val_more_member R.ws h2
  refine ⟨pre ++ pre', post' ++ post, by simp, fun kt k u l hkt hu hk => ?_⟩
  have keys : ∀ ls : List (Text × Doc), (Doc.toMembers ls).map Prod.fst = ls.map Prod.fst := fun ls => by rw [toMembers_eq_map, List.map_map]; rfl
  have hk' : k ∉ ns.map Prod.fst := fun h => by
    obtain ⟨⟨_, j0⟩, h', rfl⟩ := List.mem_map.1 h
    exact hk j0.toValue ((sortMembers_perm _).mem_iff.2 (by rw [toMembers_eq_map]; exact List.mem_map.2 ⟨_, h', rfl⟩))
  have h5 := h5 kt k u l hkt hu hk'
  obtain ⟨ms', e, hs', hm⟩ := ((C53_object _ snd k).1 _ (.inl rfl)).1 l.toValue
  have eq : ms' = sortMembers (Doc.toMembers (ns ++ [(k, l)])) := by
    refine members_ext hs' (sortMembers_sorted (by rw [keys]; exact val_keys R.distinct h5)) fun x => ?_
    rw [hm, (sortMembers_perm _).mem_iff, (sortMembers_perm _).mem_iff, toMembers_eq_map (ns ++ _), List.map_append, List.mem_append, ← toMembers_eq_map]
    simp only [List.map_cons, List.map_nil, List.mem_singleton]
    constructor
    · rintro (h | ⟨_, h⟩)
      · exact .inr h
      · exact .inl h
    · rintro (h | h)
      · exact .inr ⟨fun e => hk' (by rw [← keys]; exact List.mem_map.2 ⟨x, h, e⟩), h⟩
      · exact .inl h
  have hnil : (sortMembers (Doc.toMembers ns) = []) ↔ ns = [] := by
    rw [← List.length_eq_zero_iff, (sortMembers_perm _).length_eq, toMembers_eq_map, List.length_map, List.length_eq_zero_iff]
  obtain ⟨w, h6, h7, -⟩ := h4 _ _ (.emplaceKey k l.toValue) h5 (fun _ => rfl) (by
    simp only [Edit.on, e, Doc.toValue, eq])
  exact ⟨w, by simpa [hnil] using h6, h7⟩

end

/-- One stretch can be cut out of the text for each element of an array in it, and for each member of an object: what is left is parsed to the document after `erase`. -/
theorem C108_erase (a : Accel) (s : Text) (j : Doc) (v : Value) (p : List Sel) :
    (JsonText rfc8259 s j → parse a.traits s = some v →
      (∀ vs i, getAt v p = some (.arr .array vs) → i < vs.length →
        ∃ pre cut post w, s = pre ++ cut ++ post ∧ parse a.traits (pre ++ post) = some w ∧ v.edits [(p, .erasePos i)] = (w, .ok ())) ∧
      (∀ ms k y, getAt v p = some (.obj .object ms) → (k, y) ∈ ms →
        ∃ pre cut post w, s = pre ++ cut ++ post ∧ parse a.traits (pre ++ post) = some w ∧ v.edits [(p, .eraseKey k)] = (w, .ok ()))) ∧
    (JsonText jsonc s j → parsec a.traits s = some v →
      (∀ vs i, getAt v p = some (.arr .array vs) → i < vs.length →
        ∃ pre cut post w, s = pre ++ cut ++ post ∧ parsec a.traits (pre ++ post) = some w ∧ v.edits [(p, .erasePos i)] = (w, .ok ())) ∧
      (∀ ms k y, getAt v p = some (.obj .object ms) → (k, y) ∈ ms →
        ∃ pre cut post w, s = pre ++ cut ++ post ∧ parsec a.traits (pre ++ post) = some w ∧ v.edits [(p, .eraseKey k)] = (w, .ok ()))) :=
  ⟨fun hs hv => ⟨fun _ _ hx hi => cut_element (reading_parse a) hs hv hx hi, fun _ _ _ hx hk => cut_member (reading_parse a) hs hv hx hk⟩,
    fun hs hv => ⟨fun _ _ hx hi => cut_element (reading_parsec a) hs hv hx hi, fun _ _ _ hx hk => cut_member (reading_parsec a) hs hv hx hk⟩⟩

/-- In each array and object there is a place in the text where an element, or a member with a key of its own, can be added, with a comma before it unless it is the first:
the text is parsed to the document after `emplace`. -/
theorem C108_add (a : Accel) (s : Text) (j : Doc) (hs : JsonText rfc8259 s j) (v : Value) (hv : parse a.traits s = some v) (p : List Sel) :
    (∀ vs, getAt v p = some (.arr .array vs) → ∃ pre post, s = pre ++ post ∧ ∀ u l, Val rfc8259 u l →
      ∃ w, parse a.traits (pre ++ (if vs = [] then u else 0x2c :: u) ++ post) = some w ∧ v.edits [(p, .emplaceBack l.toValue)] = (w, .ok ())) ∧
    (∀ ms, getAt v p = some (.obj .object ms) → ∃ pre post, s = pre ++ post ∧ ∀ kt k u l, Str kt k → Val rfc8259 u l → (∀ y, (k, y) ∉ ms) →
      ∃ w, parse a.traits (pre ++ (if ms = [] then kt ++ 0x3a :: u else 0x2c :: (kt ++ 0x3a :: u)) ++ post) = some w ∧ v.edits [(p, .emplaceKey k l.toValue)] = (w, .ok ())) :=
  ⟨fun _ hx => add_element (reading_parse a) hs hv hx, fun _ hx => add_member (reading_parse a) hs hv hx⟩

/-- The same for parsec. A trailing comma stays behind what is added. -/
theorem C108_add_jsonc (a : Accel) (s : Text) (j : Doc) (hs : JsonText jsonc s j) (v : Value) (hv : parsec a.traits s = some v) (p : List Sel) :
    (∀ vs, getAt v p = some (.arr .array vs) → ∃ pre post, s = pre ++ post ∧ ∀ u l, Val jsonc u l →
      ∃ w, parsec a.traits (pre ++ (if vs = [] then u else 0x2c :: u) ++ post) = some w ∧ v.edits [(p, .emplaceBack l.toValue)] = (w, .ok ())) ∧
    (∀ ms, getAt v p = some (.obj .object ms) → ∃ pre post, s = pre ++ post ∧ ∀ kt k u l, Str kt k → Val jsonc u l → (∀ y, (k, y) ∉ ms) →
      ∃ w, parsec a.traits (pre ++ (if ms = [] then kt ++ 0x3a :: u else 0x2c :: (kt ++ 0x3a :: u)) ++ post) = some w ∧ v.edits [(p, .emplaceKey k l.toValue)] = (w, .ok ())) :=
  ⟨fun _ hx => add_element (reading_parsec a) hs hv hx, fun _ hx => add_member (reading_parsec a) hs hv hx⟩

example : parsec none (ascii "{\"l\":[1,/*x*/2,], }") = some (.obj .object [([0x6c], .arr .array [.ofInt 1, .ofInt 2])]) ∧
    parsec none (ascii "{\"l\":[/*x*/2,], }") = some (.obj .object [([0x6c], .arr .array [.ofInt 2])]) ∧
    Value.edits [([.key [0x6c]], .erasePos 0)] (.obj .object [([0x6c], .arr .array [.ofInt 1, .ofInt 2])]) = (.obj .object [([0x6c], .arr .array [.ofInt 2])], .ok ()) ∧
    parsec none (ascii "{\"l\":[1,/*x*/2,3,], }") = some (.obj .object [([0x6c], .arr .array [.ofInt 1, .ofInt 2, .ofInt 3])]) ∧
    Value.edits [([.key [0x6c]], .emplaceBack (.ofInt 3))] (.obj .object [([0x6c], .arr .array [.ofInt 1, .ofInt 2])]) = (.obj .object [([0x6c], .arr .array [.ofInt 1, .ofInt 2, .ofInt 3])], .ok ()) := by
  decide +kernel

end Meojson
