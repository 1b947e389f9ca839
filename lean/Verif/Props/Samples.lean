import Verif.Spec.Grammar

/-! Concrete texts of the grammars, used beside the theorems to show that their hypotheses are met. -/

set_option autoImplicit false

namespace Meojson.Samples
open Spec

/-- ` {"k":[1.5e3, "é😀"]} ` -/
def text : Text :=
  [0x20] ++ 0x7b :: (([] ++ [0x22, 0x6b, 0x22] ++ [] ++ 0x3a :: ([] ++ 0x5b ::
    (([] ++ [0x31, 0x2e, 0x35, 0x65, 0x33] ++ [] ++ 0x2c ::
      ([0x20] ++ 0x22 :: ((0x5c :: 0x75 :: [0x30, 0x30, 0x65, 0x39]) ++
        ((0x5c :: 0x75 :: [0x44, 0x38, 0x33, 0x44] ++ 0x5c :: 0x75 :: [0x44, 0x45, 0x30, 0x30]) ++ []) ++ [0x22]) ++ [])) ++ [0x5d]) ++ [])) ++ [0x7d]) ++ [0x20]

def doc : Doc :=
  .obj [([0x6b], .arr [.num [0x31, 0x2e, 0x35, 0x65, 0x33], .str (utf8 0xe9 ++ (utf8 0x1F600 ++ []))])]

theorem number : Number [0x31, 0x2e, 0x35, 0x65, 0x33] := by
  refine ⟨[], [0x31], [0x2e, 0x35], [0x65, 0x33], .inl rfl, .inr ⟨⟨by simp, ?_⟩, by simp⟩, .inr ⟨[0x35], ⟨by simp, ?_⟩, rfl⟩,
    .inr ⟨0x65, [], [0x33], .inl rfl, .inl rfl, ⟨by simp, ?_⟩, rfl⟩, rfl⟩ <;>
  · intro c hc; simp at hc; subst hc; unfold Digit; decide

theorem hex1 : Hex4 [0x30, 0x30, 0x65, 0x39] 0xe9 :=
  ⟨_, _, _, _, 0, 0, 14, 9, rfl, by decide, by decide, by decide, by decide, rfl⟩
theorem hex2 : Hex4 [0x44, 0x38, 0x33, 0x44] 0xD83D :=
  ⟨_, _, _, _, 13, 8, 3, 13, rfl, by decide, by decide, by decide, by decide, rfl⟩
theorem hex3 : Hex4 [0x44, 0x45, 0x30, 0x30] 0xDE00 :=
  ⟨_, _, _, _, 13, 14, 0, 0, rfl, by decide, by decide, by decide, by decide, rfl⟩

theorem wsNil : Ws [] := fun c hc => by simp at hc
theorem wsSpace : Ws [0x20] := fun c hc => by simp at hc; exact .inl hc

theorem chars : StrChars ((0x5c :: 0x75 :: [0x30, 0x30, 0x65, 0x39]) ++
    ((0x5c :: 0x75 :: [0x44, 0x38, 0x33, 0x44] ++ 0x5c :: 0x75 :: [0x44, 0x45, 0x30, 0x30]) ++ []))
    (utf8 0xe9 ++ (utf8 0x1F600 ++ [])) :=
  .cons (.unicode hex1 (by unfold HighSurrogate; decide) (by unfold LowSurrogate; decide))
    (.cons (.pair hex2 hex3 (by unfold HighSurrogate; decide) (by unfold LowSurrogate; decide) (by decide)) .nil)

theorem strK : Str [0x22, 0x6b, 0x22] [0x6b] :=
  ⟨[0x6b], .cons (t := [0x6b]) (s := [0x6b]) (.plain (by unfold Unescaped; decide)) .nil, rfl⟩

theorem valid : JsonText rfc8259 text doc :=
  ⟨rfl, _, _, _, wsSpace,
    .obj (.last wsNil strK wsNil wsNil
      (.arr (.cons wsNil (.num number) wsNil (.last wsSpace (.str ⟨_, chars, rfl⟩) wsNil))) wsNil) (by simp),
    wsSpace, rfl⟩

end Meojson.Samples
