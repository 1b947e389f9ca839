import Verif.Proofs.Alike
import Verif.Props.Parse
import Verif.Props.Serialize

/-!
# C106: what in a text does not matter
-/

set_option autoImplicit false

namespace Meojson
open Spec

theorem jsonText_json {D : Dialect} (hd : D.distinctKeys = true) {t : Text} {j : Doc} (h : JsonText D t j) : j.toValue.Json := by
  obtain ⟨_, _, _, _, _, h, _⟩ := h
  exact val_json hd h

theorem toValue_eq_iff {j k : Doc} (hj : j.Distinct) : j.toValue = k.toValue ↔ j.Alike k := ⟨toValue_alike j k, fun h => alike_toValue h hj⟩

/-- Two JSON texts are parsed to equal values, by whichever builds, exactly if the documents they spell differ at most in the order of members. White space and the spelling of characters in strings are not
part of a document; the order of elements and the spelling of numbers are. Equal means equal for `==`, and printed alike with any indent. -/
theorem C106_same (a b : Accel) (t u : Text) (j k : Doc) (ht : JsonText rfc8259 t j) (hu : JsonText rfc8259 u k) :
    ∃ v w, parse a.traits t = some v ∧ parse b.traits u = some w ∧ (v = w ↔ j.Alike k) ∧ (v.eq w = .ok true ↔ j.Alike k) ∧
      ∀ indent, v.dumps indent = w.dumps indent ↔ j.Alike k := by
  have e := toValue_eq_iff (j := j) (k := k) (jsonText_distinct rfl ht)
  have e2 : j.toValue.eq k.toValue = .ok true ↔ j.Alike k := by
    rw [C38_eq _ _ _ (jsonText_json rfl ht) (jsonText_json rfl hu), ← e]
    simp
  exact ⟨_, _, C01_parse_accepts_json a t j ht, C01_parse_accepts_json b u k hu, e, e2,
    fun indent => (C13_canonical _ _ (jsonText_json rfl ht) (jsonText_json rfl hu) indent).symm.trans e2⟩

/-- The same for texts with comments and trailing commas, read by `parsec`. -/
theorem C106_comments (a b : Accel) (t u : Text) (j k : Doc) (ht : JsonText jsonc t j) (hu : JsonText jsonc u k) :
    ∃ v w, parsec a.traits t = some v ∧ parsec b.traits u = some w ∧ (v = w ↔ j.Alike k) ∧ (v.eq w = .ok true ↔ j.Alike k) ∧
      ∀ indent, v.dumps indent = w.dumps indent ↔ j.Alike k := by
  have e := toValue_eq_iff (j := j) (k := k) (jsonText_distinct rfl ht)
  have e2 : j.toValue.eq k.toValue = .ok true ↔ j.Alike k := by
    rw [C38_eq _ _ _ (jsonText_json rfl ht) (jsonText_json rfl hu), ← e]
    simp
  exact ⟨_, _, (C16_jsonc a t j ht).1, (C16_jsonc b u k hu).1, e, e2,
    fun indent => (C13_canonical _ _ (jsonText_json rfl ht) (jsonText_json rfl hu) indent).symm.trans e2⟩

/-- Alike is an equivalence of the documents that JSON texts spell. -/
theorem C106_equivalence (i j k : Doc) (hi : i.Distinct) (hj : j.Distinct) : i.Alike i ∧ (i.Alike j → j.Alike i) ∧ (i.Alike j → j.Alike k → i.Alike k) := by
  rw [← toValue_eq_iff hi, ← toValue_eq_iff hi, ← toValue_eq_iff hi, ← toValue_eq_iff hj, ← toValue_eq_iff hj]
  exact ⟨rfl, Eq.symm, Eq.trans⟩

/-- A piece of text that is one member: `ws string ws : ws value ws`. -/
def MemberText (f : Text × Text × Doc) : Prop :=
  ∃ w₁ kt w₂ w₃ t w₄, Ws w₁ ∧ Str kt f.2.1 ∧ Ws w₂ ∧ Ws w₃ ∧ Val rfc8259 t f.2.2 ∧ Ws w₄ ∧ f.1 = w₁ ++ kt ++ w₂ ++ 0x3a :: (w₃ ++ t ++ w₄)

/-- On the texts themselves: the members of an object may be cut out at the commas and put in any order. The result of `parse` is the same, and it is one. -/
theorem C106_permuted (a b : Accel) (fs gs : List (Text × Text × Doc)) (h : ∀ f ∈ fs, MemberText f) (hd : (fs.map fun f => f.2.1).Nodup) (hne : fs ≠ []) (hp : fs.Perm gs) :
    ∃ v, parse a.traits (0x7b :: (commas (fs.map Prod.fst) ++ [0x7d])) = some v ∧ parse b.traits (0x7b :: (commas (gs.map Prod.fst) ++ [0x7d])) = some v := by
  have text : ∀ xs : List (Text × Text × Doc), xs ≠ [] → (∀ f ∈ xs, MemberText f) → (xs.map fun f => f.2.1).Nodup →
      JsonText rfc8259 (0x7b :: (commas (xs.map Prod.fst) ++ [0x7d])) (.obj (xs.map Prod.snd)) := by
    intro xs h1 h2 h3
    have nil : Ws [] := by simp [Ws]
    refine ⟨rfl, [], _, [], nil, Val.obj (members_commas xs h1 h2) ?_, nil, by simp⟩
    intro _
    rw [List.map_map]
    exact h3
  have t1 := text fs hne h hd
  have t2 := text gs (fun e => hne (by subst e; exact hp.eq_nil)) (fun f hf => h f (hp.mem_iff.2 hf)) ((hp.map _).nodup_iff.1 hd)
  refine ⟨_, C01_parse_accepts_json a _ _ t1, ?_⟩
  rw [C01_parse_accepts_json b _ _ t2]
  refine congrArg some (Eq.symm (alike_toValue (.obj (hp.map Prod.snd) ?_) (jsonText_distinct rfl t1)))
  exact alikeMembers_of rfl fun e _ k hk => toValue_alike e.2 k hk

example : MemberText (ascii " \"a\" :1", ascii "a", .num (ascii "1")) :=
  ⟨[0x20], ascii "\"a\"", [0x20], [], ascii "1", [], by simp [Ws, WsChar], ⟨ascii "a", by
    have : StrChars ([0x61] ++ []) ([0x61] ++ []) := .cons (.plain (by unfold Unescaped; decide)) .nil
    exact this, rfl⟩, by simp [Ws, WsChar], by simp [Ws], .num ⟨[], ascii "1", [], [], .inl rfl, .inr ⟨⟨by decide, by unfold Digit; decide⟩, by decide⟩, .inl rfl, .inl rfl, rfl⟩, by simp [Ws], rfl⟩

example : parse Accel.avx2.traits (ascii "{\"a\":1,\"b\":{\"x\":[],\"y\":\"A\"}}") = parse none (ascii " {\"b\" : {\"y\":\"\\u0041\", \"x\":[ ]},\n\"a\":1 }") ∧
    parse none (ascii "{\"a\":1}") ≠ parse none (ascii "{\"a\":1.0}") ∧ parse none (ascii "[1,2]") ≠ parse none (ascii "[2,1]") := by decide +kernel

example : (Doc.obj [(ascii "a", .null), (ascii "b", .arr [])]).Alike (.obj [(ascii "b", .arr []), (ascii "a", .null)]) :=
  .obj (.swap _ _ _) (.cons (.arr .nil) (.cons .null .nil))

example : ¬ (Doc.arr [.null, .bool true]).Alike (.arr [.bool true, .null]) := by
  intro h
  cases h with
  | arr h => cases h with
    | cons h _ => cases h

end Meojson
