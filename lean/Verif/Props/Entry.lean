import Verif.Model.Entry
import Verif.Props.Strings

/-!
# C40, C41, C42: streams, literals, padding
-/

set_option autoImplicit false

namespace Meojson
open Spec

/-! ## C40: byte order mark -/

/-- A text that begins with the BOM is rejected by both modes. -/
theorem C40_bom_rejected (a : Accel) (s : Bytes) :
    parse a.traits (0xEF :: 0xBB :: 0xBF :: s) = none ∧ parsec a.traits (0xEF :: 0xBB :: 0xBF :: s) = none := by
  have h : ∀ k, skipWhitespace k (0xEF :: 0xBB :: 0xBF :: s) = .ok true (0xEF :: 0xBB :: 0xBF :: s) :=
    fun k => skipWhitespace_sig k _ (by unfold Sig WsChar; decide)
  constructor <;> simp [parse, parsec, parser, parseRun, h]

/-- A stream that delivers all the bytes it announces. -/
def Stream.ofBytes (s : Bytes) : Stream := ⟨some s.length, s⟩

/-- `parse(stream, check_bom, with_comments)`: the mark is skipped when asked; without a mark the flag makes no difference; not asked, the mark
is part of the text (and the text is rejected); `with_comments` selects `parsec`. -/
theorem C40_bom (a : Accel) (s : Bytes) (hs : s.length < 2 ^ 62) :
    (∀ c, parseStream a.traits (.ofBytes (0xEF :: 0xBB :: 0xBF :: s)) true c = .ok (if c then parsec a.traits s else parse a.traits s)) ∧
    (∀ c, parseStream a.traits (.ofBytes (0xEF :: 0xBB :: 0xBF :: s)) false c = .ok none) ∧
    (∀ b c, ¬ [0xEF, 0xBB, 0xBF] <+: s → parseStream a.traits (.ofBytes s) b c = .ok (if c then parsec a.traits s else parse a.traits s)) := by
  have h1 : ∀ t : Bytes, t.length < 2 ^ 62 + 3 → readAll (.ofBytes t) = .ok t := fun t ht => by
    simp only [readAll, Stream.ofBytes]
    rw [if_neg (by unfold maxString; omega)]; simp
  have h3 := h1 (0xEF :: 0xBB :: 0xBF :: s) (by simp; omega)
  have h0 := h1 s (by omega)
  refine ⟨?_, ?_, ?_⟩
  · intro c; simp [parseStream, h3, dropBom]
  · intro c
    have := C40_bom_rejected a s
    cases c <;> simp [parseStream, h3, this]
  · intro b c h
    have hd : dropBom s = s := by
      unfold dropBom
      split
      · split
        · rename_i h'; obtain ⟨rfl, rfl, rfl⟩ := h'; exact absurd ⟨_, rfl⟩ h
        · rfl
      · rfl
    cases b <;> simp [parseStream, h0, hd]

/-- A file is read the same way; one that cannot be opened gives `nullopt`. -/
theorem C40_open (a : Accel) (st : Stream) (b c : Bool) :
    openFile a.traits (some st) b c = parseStream a.traits st b c ∧ openFile a.traits none b c = .ok none := ⟨rfl, rfl⟩

/-- Not in the property list: a stream that cannot be positioned (a pipe) makes `parse` throw `std::length_error`. -/
theorem C40_pipe_throws (a : Accel) (data : Bytes) (b c : Bool) : parseStream a.traits ⟨none, data⟩ b c = .throw .lengthError := rfl

/-- Nor can a directory be read: on Linux it can be opened, `tellg` gives the largest position, and `open` throws `std::length_error` where `nullopt` would be expected. -/
theorem C40_directory_throws (a : Accel) (data : Bytes) (b c : Bool) : openFile a.traits (some ⟨some (2 ^ 63 - 1), data⟩) b c = .throw .lengthError := by
  simp only [openFile, parseStream, readAll]
  rw [if_pos (by unfold maxString; omega)]; rfl

example : ¬ [0xEF, 0xBB, 0xBF] <+: ascii "[1]" := by decide

/-! ## C41: literals -/

private theorem parse_shape {a : Accel} {s : Bytes} {v : Value} (h : parse a.traits s = some v) :
    (∃ vs, v = .arr .array vs) ∨ (∃ ms, v = .obj .object ms) := by
  obtain ⟨j, ⟨t, r, ⟨hj, -⟩, -⟩, rfl⟩ := parser_sound (cfg := ⟨false, a.traits⟩) (accelOk a) h
  cases j <;> simp [Doc.isContainer] at hj
  · exact .inl ⟨_, by simp only [Doc.toValue]; rfl⟩
  · exact .inr ⟨_, by simp only [Doc.toValue]; rfl⟩

/-- `_json`, `_jvalue`: the parsed value, or null. -/
theorem C41_jvalue (a : Accel) (s : Bytes) :
    (∀ v, parse a.traits s = some v → jvalueLit a.traits s = v) ∧ (parse a.traits s = none → jvalueLit a.traits s = .str .null []) := by
  constructor
  · intro v h; simp [jvalueLit, h]
  · intro h; simp [jvalueLit, h, Value.null]

/-- `_jarray`: the parsed array, or an empty one; it does not throw. -/
theorem C41_jarray (a : Accel) (s : Bytes) :
    ∃ vs, jarrayLit a.traits s = .ok vs ∧
      (parse a.traits s = some (.arr .array vs) ∨ (vs = [] ∧ ∀ ws, parse a.traits s ≠ some (.arr .array ws))) := by
  cases h : parse a.traits s with
  | none => exact ⟨[], by simp [jarrayLit, jvalueLit, h, Value.null, Value.type], .inr (by simp)⟩
  | some v =>
    rcases parse_shape h with ⟨vs, rfl⟩ | ⟨ms, rfl⟩
    · exact ⟨vs, by simp [jarrayLit, jvalueLit, h], .inl rfl⟩
    · exact ⟨[], by simp [jarrayLit, jvalueLit, h, Value.type], .inr (by simp)⟩

/-- `_jobject`: the parsed object, or an empty one; it does not throw. -/
theorem C41_jobject (a : Accel) (s : Bytes) :
    ∃ ms, jobjectLit a.traits s = .ok ms ∧
      (parse a.traits s = some (.obj .object ms) ∨ (ms = [] ∧ ∀ ns, parse a.traits s ≠ some (.obj .object ns))) := by
  cases h : parse a.traits s with
  | none => exact ⟨[], by simp [jobjectLit, jvalueLit, h, Value.null, Value.type], .inr (by simp)⟩
  | some v =>
    rcases parse_shape h with ⟨vs, rfl⟩ | ⟨ms, rfl⟩
    · exact ⟨[], by simp [jobjectLit, jvalueLit, h, Value.type], .inr (by simp)⟩
    · exact ⟨ms, by simp [jobjectLit, jvalueLit, h], .inl rfl⟩

example : jarrayLit Accel.avx2.traits (ascii "[null]") = .ok [.str .null []] ∧ jarrayLit Accel.avx2.traits (ascii "{}") = .ok [] ∧
    jobjectLit Accel.avx2.traits (ascii "{\"a\":null}") = .ok [(ascii "a", .str .null [])] := by decide +kernel

/-! ## C42: NUL padding. False as stated for builds with packed bytes. -/

/-- Padding gives a packed build the room to look for the second half of a surrogate pair further on. -/
theorem C42_refuted : ∃ s n, parse (Accel.sse true).traits s = none ∧ (parse (Accel.sse true).traits (s ++ List.replicate n 0x00)).isSome = true :=
  ⟨ascii "[\"\\ud83dABC\\udca9\"]", 8, by decide +kernel, by
    rw [show ascii "[\"\\ud83dABC\\udca9\"]" ++ List.replicate 8 0x00 = [0x5b, 0x22, 0x5c, 0x75, 0x64, 0x38, 0x33, 0x64, 0x41, 0x42, 0x43, 0x5c, 0x75, 0x64, 0x63, 0x61, 0x39, 0x22, 0x5d, 0x00, 0x00, 0x00, 0x00, 0x00, 0x00, 0x00, 0x00] from by decide +kernel]
    decide +kernel⟩

/-- Full statement: NUL bytes at the end make no difference. Proved for the scalar build, and in `C42_plain_partial` for every build on texts
without surrogate escapes. -/
theorem C42_scalar_partial (k : Bool) (s : Text) (n : Nat) : parser ⟨k, none⟩ (s ++ List.replicate n 0x00) = parser ⟨k, none⟩ s := by
  have key : ∀ v, parser ⟨k, none⟩ (s ++ List.replicate n 0x00) = some v ↔ parser ⟨k, none⟩ s = some v := by
    intro v
    constructor
    · intro h
      obtain ⟨j, hr, rfl⟩ := parser_sound (cfg := ⟨k, none⟩) trivial h
      exact parser_complete (cfg := ⟨k, none⟩) trivial ((reads_zeros n).1 hr)
    · intro h
      obtain ⟨j, hr, rfl⟩ := parser_sound (cfg := ⟨k, none⟩) trivial h
      exact parser_complete (cfg := ⟨k, none⟩) trivial ((reads_zeros n).2 hr)
  exact Option.ext key

theorem C42_plain_partial (a : Accel) (k : Bool) (s : Text) (n : Nat) (hs : NoSurrogate s) :
    parser ⟨k, a.traits⟩ (s ++ List.replicate n 0x00) = parser ⟨k, a.traits⟩ s := by
  refine Option.ext fun v => ?_
  constructor
  · intro h
    obtain ⟨j, hr, rfl⟩ := parser_sound (cfg := ⟨k, a.traits⟩) (accelOk a) h
    exact parser_complete (cfg := ⟨k, a.traits⟩) (accelOk a) (reads_noSurrogate hs ((reads_zeros n).1 hr))
  · intro h
    obtain ⟨j, hr, rfl⟩ := parser_sound (cfg := ⟨k, a.traits⟩) (accelOk a) h
    exact parser_complete (cfg := ⟨k, a.traits⟩) (accelOk a) ((reads_zeros n).2 (reads_noSurrogate hs hr))

/-- In every build: if both the text and the padded text are accepted, the values agree. -/
theorem C42_value_partial (a : Accel) (k : Bool) (s : Text) (n : Nat) (v w : Value) (h : parser ⟨k, a.traits⟩ s = some v)
    (h' : parser ⟨k, a.traits⟩ (s ++ List.replicate n 0x00) = some w) : v = w := by
  obtain ⟨j, hr, rfl⟩ := parser_sound (cfg := ⟨k, a.traits⟩) (accelOk a) h
  obtain ⟨j', hr', rfl⟩ := parser_sound (cfg := ⟨k, a.traits⟩) (accelOk a) h'
  exact reads_unique hr ((reads_zeros n).1 hr')

/-- An RFC 8259 text may be padded in every build. -/
theorem C42_json_partial (a : Accel) (t : Text) (j : Doc) (n : Nat) (h : JsonText rfc8259 t j) :
    parse a.traits (t ++ List.replicate n 0x00) = some j.toValue ∧ parsec a.traits (t ++ List.replicate n 0x00) = some j.toValue := by
  have h1 : ∀ k, Reads k false t j := fun k => rfc_reads k h
  exact ⟨parser_complete (cfg := ⟨false, a.traits⟩) (accelOk a) ((reads_zeros n).2 (h1 false)),
    parser_complete (cfg := ⟨true, a.traits⟩) (accelOk a) ((reads_zeros n).2 (h1 true))⟩

/-- `parse(const char*)` reads what stands before the first NUL. -/
theorem C42_cstring (a : Accel) (s rest : Bytes) (h : 0x00 ∉ s) :
    parseCStr a.traits (s ++ 0x00 :: rest) = .ok (parse a.traits s) ∧ parsecCStr a.traits (s ++ 0x00 :: rest) = .ok (parsec a.traits s) := by
  have hc : cString (s ++ 0x00 :: rest) = .ok s := by
    have : (s ++ 0x00 :: rest).takeWhile (· ≠ 0x00) = s := by
      rw [List.takeWhile_append_of_pos] <;> simp
      intro x hx e; exact h (e ▸ hx)
    simp [cString] at this ⊢; exact this
  simp [parseCStr, parsecCStr, hc]

/-- Without a NUL it reads on behind the memory: undefined. -/
theorem C42_unterminated (a : Accel) (s : Bytes) (h : 0x00 ∉ s) : parseCStr a.traits s = .ub ∧ parsecCStr a.traits s = .ub := by
  simp [parseCStr, parsecCStr, cString, h, Out.bind]

/-- A text-mode stream that delivers fewer bytes than it announces: what is parsed is the text and NUL padding. -/
theorem C42_short_read (a : Accel) (s : Bytes) (n : Nat) (c : Bool) (h : s.length + n < 2 ^ 62) :
    parseStream a.traits ⟨some (s.length + n), s⟩ false c =
      .ok (if c then parsec a.traits (s ++ List.replicate n 0x00) else parse a.traits (s ++ List.replicate n 0x00)) := by
  have hm : ¬ maxString < s.length + n := by unfold maxString; omega
  simp [parseStream, readAll, hm, List.take_of_length_le]

example : (0x00 : UInt8) ∉ ascii "[1]" := by decide

end Meojson
