import Mathlib.Data.List.Forall2
import Verif.Props.Alike
import Verif.Props.Mutate
import Verif.Model.Convert

/-!
# C107: texts put together to a larger text
-/

set_option autoImplicit false

namespace Meojson
open Spec RawObject

/-- The property as one would put it: texts that are accepted can be put into brackets, with commas between them. -/
def C107Claim : Prop :=
  ∀ (a : Accel) (ts : List Text) (vs : List Value), List.Forall₂ (fun t v => parse a.traits t = some v) ts vs →
    parse a.traits (0x5b :: (commas ts ++ [0x5d])) = some (.arr .array vs)

/-- It is false: `{}/x` is accepted, and `[{}/x]` is not. -/
theorem C107_refuted : ¬ C107Claim := by
  intro h
  have := h .none [ascii "{}/x"] [.obj .object []] (.cons (by decide +kernel) .nil)
  exact absurd this (by decide +kernel)

example : parse none (ascii "{}/x") = some (.obj .object []) ∧ parse none (ascii "[{}/x]") = none := by decide +kernel

/-- Nor is the rest of the text safe: behind a NUL nothing is read. -/
theorem C107_refuted_nul : ∃ t v, parse none t = some v ∧ parse none (0x5b :: (commas [t, t] ++ [0x5d])) = none :=
  ⟨[0x7b, 0x7d, 0x00], .obj .object [], by decide +kernel, by decide +kernel⟩

/-- A value in a text, with white space around it. -/
def Piece (t : Text) (v : Value) : Prop := ∃ w₁ b w₂ j, Ws w₁ ∧ Val rfc8259 b j ∧ Ws w₂ ∧ t = w₁ ++ b ++ w₂ ∧ v = j.toValue

theorem elems_commas {ts : List Text} {vs : List Value} (h : List.Forall₂ Piece ts vs) : ts ≠ [] → ∃ js, Elems rfc8259 (commas ts) js ∧ Doc.toValues js = vs := by
  induction h with
  | nil => intro h; exact absurd rfl h
  | @cons t v ts vs hp hs ih =>
    intro _
    obtain ⟨w₁, b, w₂, j, h1, h2, h3, rfl, rfl⟩ := hp
    cases ts with
    | nil => cases hs; exact ⟨[j], .last h1 h2 h3, rfl⟩
    | cons t' ts =>
      obtain ⟨js, h4, h5⟩ := ih (by simp)
      exact ⟨j :: js, by simpa [commas] using Elems.cons h1 h2 h3 h4, by simp [Doc.toValues, h5]⟩

theorem pieces_array (a : Accel) {ts : List Text} {vs : List Value} (h : List.Forall₂ Piece ts vs) : parse a.traits (0x5b :: (commas ts ++ [0x5d])) = some (.arr .array vs) := by
  cases ts with
  | nil =>
    cases h
    exact C01_parse_accepts_json a _ (.arr []) ⟨rfl, [], _, [], ws_nil, .arrEmpty (w := []) ws_nil, ws_nil, rfl⟩
  | cons t ts =>
    obtain ⟨js, h1, h2⟩ := elems_commas h (by simp)
    have := C01_parse_accepts_json a _ (.arr js) ⟨rfl, [], _, [], ws_nil, .arr h1, ws_nil, by simp; rfl⟩
    rw [this, Doc.toValue, h2]

/-- What holds: JSON texts can be put into brackets, and the result is the array of their values. The builds that read the parts and the whole may differ. -/
theorem C107_partial (a b : Accel) (ts : List Text) (vs : List Value) (h : List.Forall₂ (fun t v => (∃ j, JsonText rfc8259 t j) ∧ parse a.traits t = some v) ts vs) :
    parse b.traits (0x5b :: (commas ts ++ [0x5d])) = some (.arr .array vs) := by
  refine pieces_array b (h.imp ?_)
  rintro t v ⟨⟨j, hj⟩, e⟩
  rw [C01_parse_accepts_json a t j hj] at e
  obtain ⟨_, w₁, b, w₂, h1, h2, h3, rfl⟩ := hj
  exact ⟨w₁, b, w₂, j, h1, h2, h3, rfl, (Option.some.inj e).symm⟩

/-- In particular all texts that are accepted and have no NUL, no `/` and no escapes of surrogates in them. -/
theorem C107_plain (a b : Accel) (ts : List Text) (vs : List Value)
    (h : List.Forall₂ (fun t v => NoSurrogate t ∧ 0x00 ∉ t ∧ 0x2f ∉ t ∧ parse a.traits t = some v) ts vs) :
    parse b.traits (0x5b :: (commas ts ++ [0x5d])) = some (.arr .array vs) := by
  refine C107_partial a b ts vs (h.imp ?_)
  rintro t v ⟨h1, h2, h3, h4⟩
  obtain ⟨j, hj, _⟩ := C02_plain_partial a t v h1 h2 h3 h4
  exact ⟨⟨j, hj⟩, h4⟩

/-- And everything that the library writes, scalars included, each part with an indent of its own. -/
theorem C107_dumps (a : Accel) (ts : List Text) (vs : List Value) (h : List.Forall₂ (fun t v => v.Json ∧ ∃ indent, v.dumps indent = .ok t) ts vs) :
    parse a.traits (0x5b :: (commas ts ++ [0x5d])) = some (.arr .array vs) := by
  refine pieces_array a (h.imp ?_)
  rintro t v ⟨hv, indent, e⟩
  obtain ⟨t', e', j, h1, h2⟩ := dumps_spells hv indent
  rw [e'] at e
  cases e
  exact ⟨[], t, [], j, ws_nil, h1, ws_nil, by simp, h2.symm⟩

example : parse none (ascii "[1,{\n    \"a\": null\n},\"x\"]") = some (.arr .array [.ofInt 1, .obj .object [([0x61], .null)], .str .string [0x78]]) := by decide +kernel

/-- Members: a key that was escaped and put into quotes, a colon, and what was written of a value. The object has these members. -/
theorem C107_members (a : Accel) (ts : List Text) (ms : List (Bytes × Value)) (hd : (ms.map Prod.fst).Nodup)
    (h : List.Forall₂ (fun t e => e.2.Json ∧ ∃ indent u, e.2.dumps indent = .ok u ∧ t = 0x22 :: (escapeString e.1 ++ [0x22]) ++ 0x3a :: u) ts ms) :
    ∃ r, parse a.traits (0x7b :: (commas ts ++ [0x7d])) = some (.obj .object r) ∧ r.Pairwise (fun x y => x.1 < y.1) ∧ r.Perm ms := by
  have docs : ∃ fs : List (Text × Text × Doc), fs.map Prod.fst = ts ∧ (fs.map fun f => (f.2.1, f.2.2.toValue)) = ms ∧ ∀ f ∈ fs, MemberText f := by
    clear hd
    induction h with
    | nil => exact ⟨[], rfl, rfl, fun _ h => nomatch h⟩
    | @cons t e ts ms h1 _ ih =>
      obtain ⟨fs, h2, h3, h4⟩ := ih
      obtain ⟨hv, indent, u, h5, rfl⟩ := h1
      obtain ⟨u', h6, j, h7, h8⟩ := dumps_spells hv indent
      rw [h5] at h6
      cases h6
      refine ⟨(_, e.1, j) :: fs, by rw [List.map_cons, h2], by rw [List.map_cons, h3, h8], fun f hf => ?_⟩
      rcases List.mem_cons.1 hf with rfl | hf
      · exact ⟨[], _, [], [], u, [], ws_nil, escape_str e.1, ws_nil, ws_nil, h7, ws_nil, by simp⟩
      · exact h4 f hf
  obtain ⟨fs, rfl, rfl, h4⟩ := docs
  have hk : (fs.map fun f => f.2.1).Nodup := by rw [List.map_map] at hd; exact hd
  cases fs with
  | nil =>
    have := C01_parse_accepts_json a [0x7b, 0x7d] (.obj []) ⟨rfl, [], _, [], ws_nil, .objEmpty (w := []) ws_nil, ws_nil, rfl⟩
    rw [show (Doc.obj []).toValue = .obj .object [] by simp [Doc.toValue, Doc.toMembers, sortMembers]] at this
    exact ⟨[], this, .nil, .refl _⟩
  | cons f fs =>
    have hm := members_commas (D := rfc8259) (f :: fs) (by simp) h4
    have hj : JsonText rfc8259 (0x7b :: (commas ((f :: fs).map Prod.fst) ++ [0x7d])) (.obj ((f :: fs).map Prod.snd)) :=
      ⟨rfl, [], _, [], ws_nil, Val.obj hm (fun _ => by rw [List.map_map]; exact hk), ws_nil, by simp⟩
    refine ⟨_, C01_parse_accepts_json a _ _ hj, sortMembers_sorted ?_, (sortMembers_perm _).trans ?_⟩
    · rw [toMembers_eq_map, List.map_map, List.map_map]; exact hk
    · rw [toMembers_eq_map, List.map_map]; exact .refl _

example : parse none (ascii "{\"b\":[],\"a\\n\":1}") = some (.obj .object [([0x61, 0x0a], .ofInt 1), ([0x62], .arr .array [])]) := by decide +kernel

theorem elems_append {A B : Text} {js ks : List Doc} (hA : Elems rfc8259 A js) (hB : Elems rfc8259 B ks) : Elems rfc8259 (A ++ 0x2c :: B) (js ++ ks) := by
  match A, js, hA with
  | _, _, .last h1 h2 h3 => exact .cons h1 h2 h3 hB
  | _, _, .lastComma h .. => cases h
  | _, _, .cons h1 h2 h3 hs => simpa using Elems.cons h1 h2 h3 (elems_append hs hB)

theorem members_append {A B : Text} {ms ns : List (Text × Doc)} (hA : Members rfc8259 A ms) (hB : Members rfc8259 B ns) : Members rfc8259 (A ++ 0x2c :: B) (ms ++ ns) := by
  match A, ms, hA with
  | _, _, .last h1 h2 h3 h4 h5 h6 => simpa using Members.cons h1 h2 h3 h4 h5 h6 hB
  | _, _, .lastComma h .. => cases h
  | _, _, .cons h1 h2 h3 h4 h5 h6 hs => simpa using Members.cons h1 h2 h3 h4 h5 h6 (members_append hs hB)

/-- A comma in the text of an array is `+`: `[A,B]` is parsed to what `[A]` is parsed to, plus what `[B]` is parsed to. -/
theorem C107_concat (a : Accel) (A B : Text) (js ks : List Doc) (hA : Elems rfc8259 A js) (hB : Elems rfc8259 B ks) :
    ∃ v xs w, parse a.traits (0x5b :: (A ++ [0x5d])) = some v ∧ parse a.traits (0x5b :: (B ++ [0x5d])) = some (.arr .array xs) ∧
      parse a.traits (0x5b :: (A ++ 0x2c :: B ++ [0x5d])) = some w ∧ v.plus xs = .ok w := by
  have text : ∀ T ls, Elems rfc8259 T ls → parse a.traits (0x5b :: (T ++ [0x5d])) = some (.arr .array (Doc.toValues ls)) := fun T ls h => by
    rw [C01_parse_accepts_json a _ (.arr ls) ⟨rfl, [], _, [], ws_nil, .arr h, ws_nil, by simp⟩, Doc.toValue]
  have app : ∀ js ks : List Doc, Doc.toValues (js ++ ks) = Doc.toValues js ++ Doc.toValues ks := by
    intro js ks
    induction js with
    | nil => rfl
    | cons j js ih => simp [Doc.toValues, ih]
  refine ⟨_, _, _, text A js hA, text B ks hB, text _ _ (elems_append hA hB), ?_⟩
  rw [app]
  rfl

example : Elems rfc8259 (ascii "true , null") [.bool true, .null] := by
  have := Elems.cons (D := rfc8259) (w₁ := []) (w₂ := [0x20]) ws_nil .true (by simp [rfc8259, Ws, WsChar]) (.last (w₁ := [0x20]) (w₂ := []) (by simp [rfc8259, Ws, WsChar]) .null ws_nil)
  exact this

/-- A comma in the text of an object is `|`, if no key is on both sides. (If one is, the text is rejected: C14.) -/
theorem C107_union (a : Accel) (A B : Text) (ms ns : List (Text × Doc)) (hA : Members rfc8259 A ms) (hB : Members rfc8259 B ns) (hd : ((ms ++ ns).map Prod.fst).Nodup) :
    ∃ v xs w, parse a.traits (0x7b :: (A ++ [0x7d])) = some v ∧ parse a.traits (0x7b :: (B ++ [0x7d])) = some (.obj .object xs) ∧
      parse a.traits (0x7b :: (A ++ 0x2c :: B ++ [0x7d])) = some w ∧ v.or xs = .ok w := by
  have text : ∀ T ls, Members rfc8259 T ls → (ls.map Prod.fst).Nodup → parse a.traits (0x7b :: (T ++ [0x7d])) = some (.obj .object (sortMembers (Doc.toMembers ls))) := fun T ls h hn => by
    rw [C01_parse_accepts_json a _ (.obj ls) ⟨rfl, [], _, [], ws_nil, Val.obj h fun _ => hn, ws_nil, by simp⟩, Doc.toValue]
  have hm : (ms.map Prod.fst).Nodup := by rw [List.map_append] at hd; exact (List.nodup_append.1 hd).1
  have hn : (ns.map Prod.fst).Nodup := by rw [List.map_append] at hd; exact (List.nodup_append.1 hd).2.1
  have keys : ∀ ls : List (Text × Doc), (Doc.toMembers ls).map Prod.fst = ls.map Prod.fst := fun ls => by rw [toMembers_eq_map, List.map_map]; rfl
  have sorted : ∀ ls : List (Text × Doc), (ls.map Prod.fst).Nodup → Sorted (sortMembers (Doc.toMembers ls)) := fun ls h => sortMembers_sorted (by rw [keys]; exact h)
  refine ⟨_, _, _, text A ms hA hm, text B ns hB hn, text _ _ (members_append hA hB) hd, ?_⟩
  have hu := isUnion_merge (sorted ms hm) (sorted ns hn)
  have e : Value.mergeObject (sortMembers (Doc.toMembers ms)) (sortMembers (Doc.toMembers ns)) = sortMembers (Doc.toMembers (ms ++ ns)) := by
    have mem : ∀ k x, (k, x) ∈ Value.mergeObject (sortMembers (Doc.toMembers ms)) (sortMembers (Doc.toMembers ns)) ↔ (k, x) ∈ sortMembers (Doc.toMembers (ms ++ ns)) := by
      intro k x
      rw [hu.2, (sortMembers_perm _).mem_iff, (sortMembers_perm _).mem_iff, (sortMembers_perm _).mem_iff, toMembers_eq_map (ms ++ ns), List.map_append, ← toMembers_eq_map, ← toMembers_eq_map,
        List.mem_append]
      constructor
      · rintro (h | ⟨h, _⟩)
        · exact .inr h
        · exact .inl h
      · rintro (h | h)
        · refine .inr ⟨h, fun y hy => ?_⟩
          rw [(sortMembers_perm _).mem_iff] at hy
          rw [List.map_append] at hd
          have h1 : k ∈ ms.map Prod.fst := by rw [← keys]; exact List.mem_map.2 ⟨_, h, rfl⟩
          have h2 : k ∈ ns.map Prod.fst := by rw [← keys]; exact List.mem_map.2 ⟨_, hy, rfl⟩
          exact (List.nodup_append.1 hd).2.2 k h1 k h2 rfl
        · exact .inl h
    apply sorted_ext hu.1 (sorted _ hd)
    intro k
    have key : ∀ x, find k (Value.mergeObject (sortMembers (Doc.toMembers ms)) (sortMembers (Doc.toMembers ns))) = some x ↔ find k (sortMembers (Doc.toMembers (ms ++ ns))) = some x :=
      fun x => by rw [find_eq_some hu.1, find_eq_some (sorted _ hd), mem]
    cases h : find k (sortMembers (Doc.toMembers (ms ++ ns))) with
    | some x => exact (key x).2 h
    | none =>
      cases h' : find k (Value.mergeObject (sortMembers (Doc.toMembers ms)) (sortMembers (Doc.toMembers ns))) with
      | none => rfl
      | some y => rw [(key y).1 h'] at h; cases h
  rw [← e]
  rfl

example : parse none (ascii "{\"b\":1,\"a\":2}") = some (.obj .object [([0x61], .ofInt 2), ([0x62], .ofInt 1)]) ∧
    Value.or [([0x61], .ofInt 2)] (.obj .object [([0x62], .ofInt 1)]) = .ok (.obj .object [([0x61], .ofInt 2), ([0x62], .ofInt 1)]) := by decide +kernel

example : Members rfc8259 (ascii " \"a\" :null") [(ascii "a", .null)] := by
  have hs : Str (ascii "\"a\"") (ascii "a") := ⟨ascii "a", by
    have : StrChars ([0x61] ++ []) ([0x61] ++ []) := .cons (.plain (by unfold Unescaped; decide)) .nil
    exact this, rfl⟩
  have := Members.last (D := rfc8259) (w₁ := [0x20]) (w₂ := [0x20]) (w₃ := []) (w₄ := []) (by simp [rfc8259, Ws, WsChar]) hs (by simp [rfc8259, Ws, WsChar]) ws_nil .null ws_nil
  exact this

end Meojson
