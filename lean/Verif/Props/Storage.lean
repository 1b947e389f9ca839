import Verif.Proofs.Storage
import Verif.Proofs.ParseComplete
import Verif.Props.Parse
import Verif.Props.Safety

/-!
# C72: which container holds the text does not matter
-/

set_option autoImplicit false

namespace Meojson
open Spec

/-- The claim: on a container of one-byte characters with random access, whatever pieces it keeps them in, `parse` and `parsec` give what they give on a string. -/
def C72Claim : Prop :=
  ∀ (a : Accel) (jsonc : Bool) (k off : Nat) (s : Bytes), 0 < k → parseChunked jsonc a.traits k off s = parseRun ⟨jsonc, a.traits⟩ (parseFuel s) s

/-- What is true of all of them: the result is that for a string or there is none, since the program reads beside its memory. -/
theorem C72_same_or_undefined_partial (a : Accel) (jsonc : Bool) (k off : Nat) (s : Bytes) :
    parseChunked jsonc a.traits k off s = .ub ∨ parseChunked jsonc a.traits k off s = parseRun ⟨jsonc, a.traits⟩ (parseFuel s) s := by
  have h : Pieces a.traits (a.traits.map fun T => T.chunked k off s.length) := by
    cases h : a.traits with
    | none => exact .none
    | some T => exact .some (accel_sound a T h).whole _
  exact parseRun_weak h jsonc _ s

/-- In one piece the result is that for a string: `std::vector<char>`, `std::array`, and a short `std::deque`. -/
theorem C72_one_piece_partial (a : Accel) (jsonc : Bool) (k off : Nat) (s : Bytes) (h : off + s.length ≤ k) :
    parseChunked jsonc a.traits k off s = parseRun ⟨jsonc, a.traits⟩ (parseFuel s) s := by
  rcases C72_same_or_undefined_partial a jsonc k off s with hu | hu
  · have ok : AccelOk (a.traits.map fun T => T.chunked k off s.length) := by
      cases hT : a.traits with
      | none => trivial
      | some T =>
        have hs := accel_sound a T hT
        refine ⟨hs.pos, fun n hn => ?_, hs.clean, hs.index⟩
        have hn : T.step ≤ n := hn
        have hp := hs.pos
        simp only [Traits.chunked, decide_eq_true_eq]
        by_cases hl : s.length < n
        · exact .inl hl
        · right; rw [Nat.mod_eq_of_lt (by omega)]; omega
    rcases parseRun_returns (cfg := ⟨jsonc, a.traits.map fun T => T.chunked k off s.length⟩) ok (n := parseFuel s) (s := s) (by simp only [parseFuel]; omega) with h | ⟨v, r, h⟩
    · exact absurd (h.symm.trans hu) (by simp)
    · exact absurd (h.symm.trans hu) (by simp)
  · exact hu

/-- Without packed bytes (`MEOJSON_DISABLE_PACKED_BYTES` does not do that: the 64-bit and 32-bit traits remain) the container would not matter. -/
theorem C72_no_blocks_partial (jsonc : Bool) (k off : Nat) (s : Bytes) : parseChunked jsonc none k off s = parseRun ⟨jsonc, none⟩ (parseFuel s) s := rfl

/-- A JSON text: an array with one string of `m` letters, after `j` spaces. -/
def spacedText (j m : Nat) : Text := List.replicate j 0x20 ++ ([0x5b, 0x22] ++ List.replicate m 0x61 ++ [0x22, 0x5d])

private theorem spaced_chars (m : Nat) : StrChars (List.replicate m 0x61) (List.replicate m 0x61) := by
  induction m with
  | zero => exact .nil
  | succ m ih => exact StrChars.cons (t := [0x61]) (s := [0x61]) (.plain (by unfold Unescaped; decide)) ih

private theorem spaced_json (j m : Nat) : JsonText rfc8259 (spacedText j m) (.arr [.str (List.replicate m 0x61)]) := by
  refine ⟨rfl, List.replicate j 0x20, [0x5b, 0x22] ++ List.replicate m 0x61 ++ [0x22, 0x5d], [], ?_, ?_, fun c h => absurd h (by simp), by simp [spacedText]⟩
  · intro c hc
    rw [List.mem_replicate] at hc
    exact .inl hc.2
  · have h : Val rfc8259 (0x22 :: (List.replicate m 0x61 ++ [0x22])) (.str (List.replicate m 0x61)) := .str ⟨_, spaced_chars m, rfl⟩
    have := Val.arr (D := rfc8259) (Elems.last (D := rfc8259) (w₁ := []) (w₂ := []) (fun c h => absurd h (by simp)) h (fun c h => absurd h (by simp)))
    simpa using this

private theorem step_two {a : Accel} {T : Traits} (hT : a.traits = some T) : 2 ≤ T.step := by
  cases a <;> first | (simp [Accel.traits] at hT; done) | (cases hT; exact Nat.le_add_left 2 _)

/-- The first block of the string begins with the last byte of a piece. -/
private theorem straddles {a : Accel} {T : Traits} (hT : a.traits = some T) (jsonc : Bool) (k off j : Nat) (hk : 0 < k) (hj : (off + (j + 2)) % k = k - 1) :
    parseChunked jsonc a.traits k off (spacedText j T.step) = .ub := by
  have h2 := step_two hT
  have hlen : (spacedText j T.step).length = j + T.step + 4 := by simp [spacedText]; omega
  unfold parseChunked
  rw [hT, hlen]
  have hw : wsOf jsonc (List.replicate j 0x20) := ws_wsOf jsonc fun c hc => .inl (List.mem_replicate.1 hc).2
  have sig5b : Sig 0x5b := by unfold Sig WsChar; decide
  have sig22 : Sig 0x22 := by unfold Sig WsChar; decide
  obtain ⟨f, hf⟩ : ∃ f, parseFuel (spacedText j T.step) = f + 3 := ⟨parseFuel (spacedText j T.step) - 3, by simp only [parseFuel]; omega⟩
  have e0 : spacedText j T.step = List.replicate j 0x20 ++ 0x5b :: 0x22 :: (List.replicate T.step 0x61 ++ [0x22, 0x5d]) := by simp [spacedText]
  rw [hf, e0]
  have hne : List.replicate T.step (0x61 : UInt8) ++ [0x22, 0x5d] ≠ [] := by simp
  have key : ∀ n r b, stringLoop (some (T.chunked k off (j + T.step + 4))) (n + 1) r b 0 (List.replicate T.step 0x61 ++ [0x22, 0x5d]) = .ub := by
    intro n r b
    have hl : (List.replicate T.step (0x61 : UInt8) ++ [0x22, 0x5d]).length = T.step + 2 := by simp
    have hs : scanBlock (T.chunked k off (j + T.step + 4)) (List.replicate T.step 0x61 ++ [0x22, 0x5d]) = none := by
      have : (off + (j + T.step + 4 - (T.step + 2))) % k = k - 1 := by rw [← hj]; congr 1; omega
      unfold scanBlock
      rw [if_neg]
      simp only [Traits.chunked, hl, this, decide_eq_true_eq]
      omega
    have ha : accelStep (some (T.chunked k off (j + T.step + 4))) (List.replicate T.step 0x61 ++ [0x22, 0x5d]) = .ub := by
      simp only [accelStep, skipStringLiteralWithAccel, accelLoop, hs]
      rw [if_pos (by rw [hl]; exact Nat.le_add_right _ _)]
      rfl
    generalize hx : List.replicate T.step (0x61 : UInt8) ++ [0x22, 0x5d] = x at ha ⊢
    cases x with
    | nil => simp at hx
    | cons c x => rw [stringLoop, ha]; rfl
  have hstr : parseValue ⟨jsonc, some (T.chunked k off (j + T.step + 4))⟩ (f + 1) (0x22 :: (List.replicate T.step 0x61 ++ [0x22, 0x5d])) = .ub := by
    simp only [parseValue, parseString, parseStdstring, key]
    rfl
  have hloop : arrayLoop ⟨jsonc, some (T.chunked k off (j + T.step + 4))⟩ (f + 2) [] (0x22 :: (List.replicate T.step 0x61 ++ [0x22, 0x5d])) = .ub := by
    rw [arrayLoop, skipWhitespace_sig _ _ sig22]
    simp [hstr]
  have harr : parseArray ⟨jsonc, some (T.chunked k off (j + T.step + 4))⟩ (f + 3) (0x5b :: 0x22 :: (List.replicate T.step 0x61 ++ [0x22, 0x5d])) = .ub := by
    rw [parseArray]
    simp [skipWhitespace_sig _ _ sig22, hloop]
  unfold parseRun
  rw [skipWhitespace_complete _ _ hw sig5b]
  simp [harr]

/-- With packed bytes, whatever the size of the pieces: some JSON text makes the program read beside its memory. (`std::deque<char>` has pieces of 512 bytes in libstdc++, 4096 in
libc++ and 16 in Microsoft's library.) -/
theorem C72_undefined (a : Accel) (ha : a.traits.isSome) (jsonc : Bool) (k off : Nat) (hk : 0 < k) :
    ∃ s j, JsonText rfc8259 s j ∧ parse a.traits s = some j.toValue ∧ parseChunked jsonc a.traits k off s = .ub := by
  obtain ⟨T, hT⟩ := Option.isSome_iff_exists.1 ha
  have hj : (off + ((k - 1 + (k - (off + 2) % k)) + 2)) % k = k - 1 := by
    have h1 := Nat.mod_lt (off + 2) hk
    have h2 := Nat.div_add_mod (off + 2) k
    have e : off + ((k - 1 + (k - (off + 2) % k)) + 2) = k - 1 + k * ((off + 2) / k + 1) := by
      rw [Nat.mul_add, Nat.mul_one]; omega
    rw [e, Nat.add_mul_mod_self_left, Nat.mod_eq_of_lt (by omega)]
  exact ⟨_, _, spaced_json _ T.step, C01_parse_accepts_json a _ _ (spaced_json _ T.step), straddles hT jsonc k off _ hk hj⟩

/-- So the claim is false, of `std::deque<char>` for example. -/
theorem C72_refuted : ¬ C72Claim := fun h => by
  obtain ⟨s, j, -, -, hs⟩ := C72_undefined .avx2 rfl false 512 0 (by omega)
  have := h .avx2 false 512 0 s (by omega)
  rw [hs] at this
  exact C06_no_read_past_end .avx2 false _ s this.symm

-- Not vacuous: in pieces of 16 bytes, two short strings with the end of a piece between them are read, a string across the end of a piece is not.
example : parseChunked false (Accel.u32 true).traits 16 0 (ascii "[\"abcd\", \"efgh\"]") =
    .ok (.arr .array [.str .string (ascii "abcd"), .str .string (ascii "efgh")]) [] := by decide +kernel
example : parseChunked false (Accel.u32 true).traits 16 8 (ascii "[\"abcdefgh\"]") = .ub := by decide +kernel

end Meojson
