import Verif.Proofs.Ws
import Verif.Proofs.Num
import Verif.Proofs.Map
import Verif.Spec.Located

/-! Every text of the grammar is read, to the value it denotes. -/

namespace Meojson
open Spec

/-- What completeness needs of a dialect. -/
structure Admits (cfg : Cfg) (D : LDialect) : Prop where
  ws : ∀ w, D.ws w → wsOf cfg.jsonc w
  quote : ∀ {r t s}, D.str r t s → ∃ t', t = 0x22 :: t'
  read : ∀ {r t s}, D.str r t s → parseStdstring cfg.accel (t ++ r) = .ok s r
  comma : D.trailingComma = true → cfg.jsonc = true
  keys : D.distinctKeys = true

theorem toMembers_keys (ms : List (Text × Doc)) : (Doc.toMembers ms).map Prod.fst = ms.map Prod.fst := by
  induction ms with
  | nil => simp [Doc.toMembers]
  | cons m ms ih => obtain ⟨k, j⟩ := m; simp [Doc.toMembers, ih]

theorem numStop_ws {j : Bool} {w : Text} (hw : wsOf j w) {c : UInt8} (s : Bytes) (hc : NumStop c) :
    ∃ d r, w ++ c :: s = d :: r ∧ NumStop d := by
  have hch : ∀ {x : UInt8}, WsChar x → NumStop x := by
    rintro x (rfl | rfl | rfl | rfl) <;> (unfold NumStop Digit; decide)
  cases j with
  | false =>
    cases w with
    | nil => exact ⟨c, s, rfl, hc⟩
    | cons x w => exact ⟨x, _, rfl, hch (hw x (by simp))⟩
  | true =>
    have hw : WsC w := hw
    cases hw with
    | nil => exact ⟨c, s, rfl, hc⟩
    | char hx _ => exact ⟨_, _, rfl, hch hx⟩
    | comment hk _ =>
      obtain ⟨k', rfl⟩ := comment_cons hk
      exact ⟨0x2f, _, rfl, by unfold NumStop Digit; decide⟩

/-- A byte with which a value begins. -/
def ValHead (c : UInt8) : Prop := Sig c ∧ c ≠ 0x5d ∧ c ≠ 0x7d

theorem digit_valHead {c : UInt8} (h : Digit c) : ValHead c := by
  obtain ⟨h1, h2⟩ := h
  refine ⟨⟨?_, ?_, ?_⟩, ?_, ?_⟩
  · rintro (rfl | rfl | rfl | rfl) <;> revert h1 <;> decide
  all_goals (rintro rfl; revert h1 h2; decide)

theorem number_head {t : Text} (h : Number t) : ∃ c t', t = c :: t' ∧ (c = 0x2d ∨ Digit c) := by
  obtain ⟨sign, i, f, e, hsign, hi, -, -, rfl⟩ := h
  have hi' : ∃ x xs, i = x :: xs ∧ Digit x := by
    rcases hi with rfl | ⟨⟨h1, h2⟩, _⟩
    · exact ⟨_, _, rfl, by unfold Digit; decide⟩
    · cases i with
      | nil => exact absurd rfl h1
      | cons x xs => exact ⟨x, xs, rfl, h2 x (by simp)⟩
  obtain ⟨x, xs, rfl, hx⟩ := hi'
  rcases hsign with rfl | rfl
  · exact ⟨x, _, rfl, .inr hx⟩
  · exact ⟨0x2d, _, rfl, .inl rfl⟩

theorem val_head {D : Dialect} (hs : ∀ t s, D.str t s → ∃ t', t = 0x22 :: t') {t : Text} {j : Doc} (h : Val D t j) :
    ∃ c t', t = c :: t' ∧ ValHead c := by
  cases h with
  | null => exact ⟨_, _, rfl, by unfold ValHead Sig WsChar; decide⟩
  | true => exact ⟨_, _, rfl, by unfold ValHead Sig WsChar; decide⟩
  | false => exact ⟨_, _, rfl, by unfold ValHead Sig WsChar; decide⟩
  | num h =>
    obtain ⟨c, t', rfl, hc⟩ := number_head h
    refine ⟨c, t', rfl, ?_⟩
    rcases hc with rfl | hc
    · unfold ValHead Sig WsChar; decide
    · exact digit_valHead hc
  | str h => obtain ⟨t', rfl⟩ := hs _ _ h; exact ⟨_, _, rfl, by unfold ValHead Sig WsChar; decide⟩
  | arrEmpty => exact ⟨_, _, rfl, by unfold ValHead Sig WsChar; decide⟩
  | arr => exact ⟨_, _, rfl, by unfold ValHead Sig WsChar; decide⟩
  | objEmpty => exact ⟨_, _, rfl, by unfold ValHead Sig WsChar; decide⟩
  | obj => exact ⟨_, _, rfl, by unfold ValHead Sig WsChar; decide⟩

theorem lval_head {D : LDialect} (hs : ∀ r t s, D.str r t s → ∃ t', t = 0x22 :: t') {r t : Text} {j : Doc} (h : LVal D r t j) :
    ∃ c t', t = c :: t' ∧ ValHead c := by
  cases h with
  | null => exact ⟨_, _, rfl, by unfold ValHead Sig WsChar; decide⟩
  | true => exact ⟨_, _, rfl, by unfold ValHead Sig WsChar; decide⟩
  | false => exact ⟨_, _, rfl, by unfold ValHead Sig WsChar; decide⟩
  | num h =>
    obtain ⟨c, t', rfl, hc⟩ := number_head h
    refine ⟨c, t', rfl, ?_⟩
    rcases hc with rfl | hc
    · unfold ValHead Sig WsChar; decide
    · exact digit_valHead hc
  | str h => obtain ⟨t', rfl⟩ := hs _ _ _ h; exact ⟨_, _, rfl, by unfold ValHead Sig WsChar; decide⟩
  | arrEmpty => exact ⟨_, _, rfl, by unfold ValHead Sig WsChar; decide⟩
  | arr => exact ⟨_, _, rfl, by unfold ValHead Sig WsChar; decide⟩
  | objEmpty => exact ⟨_, _, rfl, by unfold ValHead Sig WsChar; decide⟩
  | obj => exact ⟨_, _, rfl, by unfold ValHead Sig WsChar; decide⟩

theorem lenientStr_head {l : Bool} {t s : Text} (h : LenientStr l t s) : ∃ t', t = 0x22 :: t' := by
  obtain ⟨b, _, rfl⟩ := h; exact ⟨_, rfl⟩

/-- `skip_whitespace` stops where it would stop again. -/
theorem skipWhitespace_idem {j : Bool} {s s' : Bytes} (h : skipWhitespace j s = .ok true s') :
    skipWhitespace j s' = .ok true s' := by
  obtain ⟨w, c, r, rfl, -, -, hc⟩ := skipWhitespace_true h
  exact skipWhitespace_sig j r hc

theorem arrayLoop_skip {cfg : Cfg} {s s' : Bytes} (h : skipWhitespace cfg.jsonc s = .ok true s') (n : Nat) (acc : List Value) :
    arrayLoop cfg n acc s = arrayLoop cfg n acc s' := by
  cases n with
  | zero => simp only [arrayLoop]
  | succ n => simp only [arrayLoop, h, skipWhitespace_idem h]

theorem objectLoop_skip {cfg : Cfg} {s s' : Bytes} (h : skipWhitespace cfg.jsonc s = .ok true s') (n : Nat)
    (acc : List (Bytes × Value)) : objectLoop cfg n acc s = objectLoop cfg n acc s' := by
  cases n with
  | zero => simp only [objectLoop]
  | succ n => simp only [objectLoop, h, skipWhitespace_idem h]

theorem sig_of {c : UInt8} (h : c = 0x5d ∨ c = 0x7d ∨ c = 0x2c ∨ c = 0x3a ∨ c = 0x22) : Sig c := by
  rcases h with rfl | rfl | rfl | rfl | rfl <;> (unfold Sig WsChar; decide)

theorem numStop_of {c : UInt8} (h : c = 0x5d ∨ c = 0x7d ∨ c = 0x2c ∨ c = 0x3a ∨ c = 0x22) : NumStop c := by
  rcases h with rfl | rfl | rfl | rfl | rfl <;> (unfold NumStop Digit; decide)

/-- What may follow a value: anything after a container; after a scalar, a byte that cannot extend a number. -/
def Follow (j : Doc) (rest : Bytes) : Prop := j.isContainer = true ∨ ∃ c r, rest = c :: r ∧ NumStop c

theorem matchLiteral_self (l rest : Bytes) : matchLiteral l (l ++ rest) = .ok () rest := by
  induction l with
  | nil => rfl
  | cons c l ih => simp [matchLiteral, ih]

section
variable {cfg : Cfg} {D : LDialect} (hD : Admits cfg D)
include hD

theorem Admits.head {r t : Text} {j : Doc} (h : LVal D r t j) : ∃ c t', t = c :: t' ∧ ValHead c :=
  lval_head (fun _ _ _ h => hD.quote h) h

/-- One pass of the loop of `parse_array`. -/
theorem arrayLoop_step {w₁ t w₂ : Text} {j : Doc} {c : UInt8} {rest : Bytes} (hw₁ : D.ws w₁) (ht : LVal D (w₂ ++ c :: rest) t j) (hw₂ : D.ws w₂) {n : Nat}
    (ih : Follow j (w₂ ++ c :: rest) → parseValue cfg n (t ++ (w₂ ++ c :: rest)) = .ok j.toValue (w₂ ++ c :: rest))
    (hc : c = 0x5d ∨ c = 0x2c) (acc : List Value) :
    arrayLoop cfg (n + 1) acc (w₁ ++ t ++ w₂ ++ c :: rest) =
      if c = 0x2c then arrayLoop cfg n (acc ++ [j.toValue]) rest else .ok (acc ++ [j.toValue]) (c :: rest) := by
  obtain ⟨d, t', rfl, hd⟩ := hD.head ht
  have hcs : c = 0x5d ∨ c = 0x7d ∨ c = 0x2c ∨ c = 0x3a ∨ c = 0x22 := by grind
  have e : w₁ ++ d :: t' ++ w₂ ++ c :: rest = w₁ ++ d :: (t' ++ (w₂ ++ c :: rest)) := by simp
  rw [e]
  have h1 := skipWhitespace_complete cfg.jsonc (t' ++ (w₂ ++ c :: rest)) (hD.ws _ hw₁) hd.1
  have h2 := ih (.inr (numStop_ws (hD.ws _ hw₂) rest (numStop_of hcs)))
  have h3 := skipWhitespace_complete cfg.jsonc rest (hD.ws _ hw₂) (sig_of hcs)
  simp only [List.cons_append] at h2
  simp only [arrayLoop, h1, Res.bind_ok, hd.2.1, and_false, if_false, h2, h3, Bool.true_eq_false]

/-- One pass of the loop of `parse_object`. -/
theorem objectLoop_step {w₁ kt k w₂ w₃ t w₄ : Text} {j : Doc} {c : UInt8} {rest : Bytes} (hw₁ : D.ws w₁)
    (hk : D.str (w₂ ++ 0x3a :: (w₃ ++ (t ++ (w₄ ++ c :: rest)))) kt k) (hw₂ : D.ws w₂)
    (hw₃ : D.ws w₃) (ht : LVal D (w₄ ++ c :: rest) t j) (hw₄ : D.ws w₄) {n : Nat}
    (ih : Follow j (w₄ ++ c :: rest) → parseValue cfg n (t ++ (w₄ ++ c :: rest)) = .ok j.toValue (w₄ ++ c :: rest))
    (hc : c = 0x7d ∨ c = 0x2c) (acc : List (Bytes × Value))
    (hnd : ((acc ++ [(k, j.toValue)]).map Prod.fst).Nodup) :
    objectLoop cfg (n + 1) (sortMembers acc) (w₁ ++ kt ++ w₂ ++ 0x3a :: (w₃ ++ t ++ w₄ ++ c :: rest)) =
      if c = 0x2c then objectLoop cfg n (sortMembers (acc ++ [(k, j.toValue)])) rest
      else .ok (sortMembers (acc ++ [(k, j.toValue)])) (c :: rest) := by
  obtain ⟨d, t', rfl, hd⟩ := hD.head ht
  have hR := hD.read hk
  obtain ⟨kt', rfl⟩ := hD.quote hk
  have hcs : c = 0x5d ∨ c = 0x7d ∨ c = 0x2c ∨ c = 0x3a ∨ c = 0x22 := by grind
  have e : w₁ ++ 0x22 :: kt' ++ w₂ ++ 0x3a :: (w₃ ++ d :: t' ++ w₄ ++ c :: rest) =
      w₁ ++ 0x22 :: (kt' ++ (w₂ ++ 0x3a :: (w₃ ++ d :: (t' ++ (w₄ ++ c :: rest))))) := by simp
  rw [e]
  have h1 := skipWhitespace_complete cfg.jsonc (kt' ++ (w₂ ++ 0x3a :: (w₃ ++ d :: (t' ++ (w₄ ++ c :: rest)))))
    (hD.ws _ hw₁) (c := 0x22) (sig_of (by simp))
  have h2 := hR
  have h3 := skipWhitespace_complete cfg.jsonc (w₃ ++ d :: (t' ++ (w₄ ++ c :: rest)))
    (hD.ws _ hw₂) (c := 0x3a) (sig_of (by simp))
  have h4 := skipWhitespace_complete cfg.jsonc (t' ++ (w₄ ++ c :: rest)) (hD.ws _ hw₃) hd.1
  have h5 := ih (.inr (numStop_ws (hD.ws _ hw₄) rest (numStop_of hcs)))
  have h6 := skipWhitespace_complete cfg.jsonc rest (hD.ws _ hw₄) (sig_of hcs)
  have h7 := emplace_sortMembers hnd
  simp only [List.cons_append] at h2 h5
  simp only [objectLoop, h1, Res.bind_ok, h2, h3, h4, h5, h6, h7, if_false, Bool.true_eq_false, ne_eq,
    not_true_eq_false, show ¬ ((0x22 : UInt8) = 0x7d) by decide, and_false]

theorem elems_skip {r t : Text} {js : List Doc} (h : LElems D r t js) (rest : Bytes) :
    ∃ d r, skipWhitespace cfg.jsonc (t ++ 0x5d :: rest) = .ok true (d :: r) ∧ d ≠ 0x5d := by
  cases h with
  | last hw₁ ht hw₂ =>
    obtain ⟨d, t', rfl, hd⟩ := hD.head ht
    exact ⟨d, _, by simpa using skipWhitespace_complete cfg.jsonc _ (hD.ws _ hw₁) hd.1, hd.2.1⟩
  | lastComma _ hw₁ ht hw₂ _ =>
    obtain ⟨d, t', rfl, hd⟩ := hD.head ht
    exact ⟨d, _, by simpa using skipWhitespace_complete cfg.jsonc _ (hD.ws _ hw₁) hd.1, hd.2.1⟩
  | cons hw₁ ht hw₂ _ =>
    obtain ⟨d, t', rfl, hd⟩ := hD.head ht
    exact ⟨d, _, by simpa using skipWhitespace_complete cfg.jsonc _ (hD.ws _ hw₁) hd.1, hd.2.1⟩

theorem members_skip {r t : Text} {ms : List (Text × Doc)} (h : LMembers D r t ms) (rest : Bytes) :
    ∃ d r, skipWhitespace cfg.jsonc (t ++ 0x7d :: rest) = .ok true (d :: r) ∧ d ≠ 0x7d := by
  have hq : Sig 0x22 := sig_of (by simp)
  cases h with
  | last hw₁ ht =>
    obtain ⟨t', rfl⟩ := hD.quote ht
    exact ⟨0x22, _, by simpa using skipWhitespace_complete cfg.jsonc _ (hD.ws _ hw₁) hq, by decide⟩
  | lastComma _ hw₁ ht =>
    obtain ⟨t', rfl⟩ := hD.quote ht
    exact ⟨0x22, _, by simpa using skipWhitespace_complete cfg.jsonc _ (hD.ws _ hw₁) hq, by decide⟩
  | cons hw₁ ht =>
    obtain ⟨t', rfl⟩ := hD.quote ht
    exact ⟨0x22, _, by simpa using skipWhitespace_complete cfg.jsonc _ (hD.ws _ hw₁) hq, by decide⟩

theorem val_length {r t : Text} {j : Doc} (h : LVal D r t j) : 0 < t.length := by
  obtain ⟨c, t', rfl, _⟩ := hD.head h; simp

/-- Completeness for values. -/
theorem parseValue_complete {rest t : Text} {j : Doc} (h : LVal D rest t j) : ∀ n, 3 * t.length ≤ n → Follow j rest →
    parseValue cfg n (t ++ rest) = .ok j.toValue rest := by
  refine LVal.rec (D := D)
    (motive_1 := fun rest t j _ => ∀ n, 3 * t.length ≤ n → Follow j rest →
      parseValue cfg n (t ++ rest) = .ok j.toValue rest)
    (motive_2 := fun r t js _ => ∀ n, 3 * t.length + 1 ≤ n → ∀ acc rest, r = 0x5d :: rest →
      arrayLoop cfg n acc (t ++ 0x5d :: rest) = .ok (acc ++ Doc.toValues js) (0x5d :: rest))
    (motive_3 := fun r t ms _ => ∀ n, 3 * t.length + 1 ≤ n → ∀ acc rest, r = 0x7d :: rest →
      ((acc ++ Doc.toMembers ms).map Prod.fst).Nodup →
      objectLoop cfg n (sortMembers acc) (t ++ 0x7d :: rest) =
        .ok (sortMembers (acc ++ Doc.toMembers ms)) (0x7d :: rest))
    ?_ ?_ ?_ ?_ ?_ ?_ ?_ ?_ ?_ ?_ ?_ ?_ ?_ ?_ ?_ h
  · -- null
    intro rest n hn _
    obtain ⟨n, rfl⟩ : ∃ m, n = m + 1 := ⟨n - 1, by simp at hn; omega⟩
    have := matchLiteral_self [0x6e, 0x75, 0x6c, 0x6c] rest
    simp only [List.cons_append, List.nil_append] at this
    simp [parseValue, parseNull, this, Doc.toValue, Value.null]
  · -- true
    intro rest n hn _
    obtain ⟨n, rfl⟩ : ∃ m, n = m + 1 := ⟨n - 1, by simp at hn; omega⟩
    have := matchLiteral_self [0x74, 0x72, 0x75, 0x65] rest
    simp only [List.cons_append, List.nil_append] at this
    simp [parseValue, parseBoolean, this, Doc.toValue]
    rfl
  · -- false
    intro rest n hn _
    obtain ⟨n, rfl⟩ : ∃ m, n = m + 1 := ⟨n - 1, by simp at hn; omega⟩
    have := matchLiteral_self [0x66, 0x61, 0x6c, 0x73, 0x65] rest
    simp only [List.cons_append, List.nil_append] at this
    simp [parseValue, parseBoolean, this, Doc.toValue]
    rfl
  · -- number
    intro rest t ht n hn hr
    rcases hr with hr | ⟨c, r, rfl, hc⟩
    · simp [Doc.isContainer] at hr
    have hp := parseNumber_complete ht r hc
    obtain ⟨d, t', rfl, hd⟩ := number_head ht
    obtain ⟨n, rfl⟩ : ∃ m, n = m + 1 := ⟨n - 1, by simp at hn; omega⟩
    have h1 : d = 0x2d ∨ isDigit d = true := by rw [isDigit_iff]; exact hd
    have h2 : d ≠ 0x6e ∧ ¬ (d = 0x74 ∨ d = 0x66) := by
      refine ⟨?_, ?_⟩
      · rintro rfl; revert h1; decide
      · rintro (rfl | rfl) <;> (revert h1; decide)
    simp only [List.cons_append] at hp ⊢
    simp only [parseValue, h2.1, h2.2, if_false, h1, if_true, hp, Doc.toValue]
  · -- string
    intro rest t s ht n hn _
    have hp := hD.read ht
    obtain ⟨t', rfl⟩ := hD.quote ht
    obtain ⟨n, rfl⟩ : ∃ m, n = m + 1 := ⟨n - 1, by simp at hn; omega⟩
    simp only [List.cons_append] at hp ⊢
    simp [parseValue, parseString, hp, Doc.toValue, isDigit]
  · -- []
    intro rest w hw n hn _
    obtain ⟨n, rfl⟩ : ∃ m, n = m + 2 := ⟨n - 2, by simp at hn; omega⟩
    have h1 := skipWhitespace_complete cfg.jsonc rest (hD.ws _ hw) (c := 0x5d) (sig_of (by simp))
    simp [parseValue, parseArray, h1, Doc.toValue, isDigit, Doc.toValues, Value.ofArray]
  · -- [ elems ]
    intro rest t js ht ih n hn _
    simp only [List.length_cons, List.length_append, List.length_nil] at hn
    obtain ⟨n, rfl⟩ : ∃ m, n = m + 2 := ⟨n - 2, by omega⟩
    obtain ⟨d, r, h1, h2⟩ := elems_skip hD ht rest
    have h3 := ih n (by omega) [] rest rfl
    rw [arrayLoop_skip h1] at h3
    have h4 := skipWhitespace_sig cfg.jsonc rest (c := 0x5d) (sig_of (by simp))
    simp [parseValue, parseArray, h1, h2, h3, h4, Doc.toValue, isDigit, Value.ofArray]
  · -- {}
    intro rest w hw n hn _
    obtain ⟨n, rfl⟩ : ∃ m, n = m + 2 := ⟨n - 2, by simp at hn; omega⟩
    have h1 := skipWhitespace_complete cfg.jsonc rest (hD.ws _ hw) (c := 0x7d) (sig_of (by simp))
    simp [parseValue, parseObject, h1, Doc.toValue, isDigit, Doc.toMembers, Value.ofObject, sortMembers]
  · -- { members }
    intro rest t ms ht hnd ih n hn _
    simp only [List.length_cons, List.length_append, List.length_nil] at hn
    obtain ⟨n, rfl⟩ : ∃ m, n = m + 2 := ⟨n - 2, by omega⟩
    obtain ⟨d, r, h1, h2⟩ := members_skip hD ht rest
    have h3 := ih n (by omega) [] rest rfl (by simpa [toMembers_keys] using hnd hD.keys)
    rw [objectLoop_skip h1] at h3
    have h4 := skipWhitespace_sig cfg.jsonc rest (c := 0x7d) (sig_of (by simp))
    have h5 : sortMembers ([] : List (Bytes × Value)) = [] := by simp [sortMembers]
    rw [h5] at h3
    simp [parseValue, parseObject, h1, h2, h3, h4, Doc.toValue, isDigit, Value.ofObject]
  · -- last element
    intro _ w₁ t j w₂ hw₁ ht hw₂ ih n hn acc rest er; subst er
    simp only [List.length_append] at hn
    obtain ⟨n, rfl⟩ : ∃ m, n = m + 1 := ⟨n - 1, by omega⟩
    rw [arrayLoop_step hD hw₁ ht hw₂ (ih n (by omega)) (.inl rfl)]
    simp [Doc.toValues]
  · -- last element and comma
    intro _ w₁ t j w₂ w₃ hcomma hw₁ ht hw₂ hw₃ ih n hn acc rest er; subst er
    simp only [List.length_append, List.length_cons] at hn
    obtain ⟨n, rfl⟩ : ∃ m, n = m + 2 := ⟨n - 2, by omega⟩
    have e : w₁ ++ t ++ w₂ ++ 0x2c :: w₃ ++ 0x5d :: rest = w₁ ++ t ++ w₂ ++ 0x2c :: (w₃ ++ 0x5d :: rest) := by simp
    rw [e, arrayLoop_step hD hw₁ ht hw₂ (ih (n + 1) (by omega)) (.inr rfl)]
    have h1 := skipWhitespace_complete cfg.jsonc rest (hD.ws _ hw₃) (c := 0x5d) (sig_of (by simp))
    rw [hD.comma hcomma] at h1
    simp [arrayLoop, h1, hD.comma hcomma, Doc.toValues]
  · -- element, comma, elements
    intro _ w₁ t j w₂ ts js hw₁ ht hw₂ hts ih ih' n hn acc rest er; subst er
    simp only [List.length_append, List.length_cons] at hn
    obtain ⟨n, rfl⟩ : ∃ m, n = m + 1 := ⟨n - 1, by omega⟩
    have e : w₁ ++ t ++ w₂ ++ 0x2c :: ts ++ 0x5d :: rest = w₁ ++ t ++ w₂ ++ 0x2c :: (ts ++ 0x5d :: rest) := by simp
    rw [e, arrayLoop_step hD hw₁ ht hw₂ (ih n (by omega)) (.inr rfl), if_pos rfl, ih' n (by omega) _ _ rfl]
    simp [Doc.toValues]
  · -- last member
    intro _ w₁ kt k w₂ w₃ t j w₄ hw₁ hk hw₂ hw₃ ht hw₄ ih n hn acc rest er hnd; subst er
    simp only [List.length_append, List.length_cons] at hn
    obtain ⟨n, rfl⟩ : ∃ m, n = m + 1 := ⟨n - 1, by omega⟩
    simp only [Doc.toMembers] at hnd ⊢
    have e : w₁ ++ kt ++ w₂ ++ 0x3a :: (w₃ ++ t ++ w₄) ++ 0x7d :: rest =
      w₁ ++ kt ++ w₂ ++ 0x3a :: (w₃ ++ t ++ w₄ ++ 0x7d :: rest) := by simp
    rw [e, objectLoop_step hD hw₁ hk hw₂ hw₃ ht hw₄ (ih n (by omega)) (.inl rfl) acc hnd]
    simp
  · -- last member and comma
    intro _ w₁ kt k w₂ w₃ t j w₄ w₅ hcomma hw₁ hk hw₂ hw₃ ht hw₄ hw₅ ih n hn acc rest er hnd; subst er
    simp only [List.length_append, List.length_cons] at hn
    obtain ⟨n, rfl⟩ : ∃ m, n = m + 2 := ⟨n - 2, by omega⟩
    simp only [Doc.toMembers] at hnd ⊢
    have e : w₁ ++ kt ++ w₂ ++ 0x3a :: (w₃ ++ t ++ w₄ ++ 0x2c :: w₅) ++ 0x7d :: rest =
      w₁ ++ kt ++ w₂ ++ 0x3a :: (w₃ ++ t ++ w₄ ++ 0x2c :: (w₅ ++ 0x7d :: rest)) := by simp
    rw [e, objectLoop_step hD hw₁ hk hw₂ hw₃ ht hw₄ (ih (n + 1) (by omega)) (.inr rfl) acc hnd]
    have h1 := skipWhitespace_complete cfg.jsonc rest (hD.ws _ hw₅) (c := 0x7d) (sig_of (by simp))
    rw [hD.comma hcomma] at h1
    simp [objectLoop, h1, hD.comma hcomma]
  · -- member, comma, members
    intro _ w₁ kt k w₂ w₃ t j w₄ ts ms hw₁ hk hw₂ hw₃ ht hw₄ hts ih ih' n hn acc rest er hnd; subst er
    simp only [List.length_append, List.length_cons] at hn
    obtain ⟨n, rfl⟩ : ∃ m, n = m + 1 := ⟨n - 1, by omega⟩
    have e : w₁ ++ kt ++ w₂ ++ 0x3a :: (w₃ ++ t ++ w₄ ++ 0x2c :: ts) ++ 0x7d :: rest =
      w₁ ++ kt ++ w₂ ++ 0x3a :: (w₃ ++ t ++ w₄ ++ 0x2c :: (ts ++ 0x7d :: rest)) := by simp
    have hsplit : acc ++ Doc.toMembers ((k, j) :: ms) = (acc ++ [(k, j.toValue)]) ++ Doc.toMembers ms := by
      simp [Doc.toMembers]
    rw [hsplit] at hnd ⊢
    have hnd' : ((acc ++ [(k, j.toValue)]).map Prod.fst).Nodup := by
      rw [List.map_append, List.nodup_append] at hnd; exact hnd.1
    rw [e, objectLoop_step hD hw₁ hk hw₂ hw₃ ht hw₄ (ih n (by omega)) (.inr rfl) acc hnd', if_pos rfl,
      ih' n (by omega) _ _ rfl hnd]

end

theorem parseValue_bracket (cfg : Cfg) (n : Nat) (s : Bytes) :
    parseValue cfg (n + 1) (0x5b :: s) = parseArray cfg n (0x5b :: s) := by
  simp [parseValue, isDigit]

theorem parseValue_brace (cfg : Cfg) (n : Nat) (s : Bytes) :
    parseValue cfg (n + 1) (0x7b :: s) = parseObject cfg n (0x7b :: s) := by
  simp [parseValue, isDigit]

theorem container_head {D : LDialect} {r t : Text} {j : Doc} (h : LVal D r t j) (hj : j.isContainer = true) :
    ∃ c t', t = c :: t' ∧ (c = 0x5b ∨ c = 0x7b) := by
  cases h <;> first | (simp [Doc.isContainer] at hj; done) | exact ⟨_, _, rfl, by simp⟩

/-- The root of a document. -/
theorem parseRun_complete {cfg : Cfg} {D : LDialect} (hD : Admits cfg D) {w₁ t w₂ r : Text} {j : Doc}
    (hj : j.isContainer = true) (hw₁ : D.ws w₁) (ht : LVal D (w₂ ++ r) t j) (hw₂ : wsOf cfg.jsonc w₂) (hr : Stop cfg.jsonc r)
    {n : Nat} (hn : 3 * t.length ≤ n + 1) :
    ∃ rest, parseRun cfg n (w₁ ++ t ++ w₂ ++ r) = .ok j.toValue rest := by
  obtain ⟨c, t', rfl, hc⟩ := container_head ht hj
  have hsig : Sig c := by rcases hc with rfl | rfl <;> (unfold Sig WsChar; decide)
  have h1 := skipWhitespace_complete cfg.jsonc (t' ++ (w₂ ++ r)) (hD.ws _ hw₁) hsig
  have e : w₁ ++ c :: t' ++ w₂ ++ r = w₁ ++ c :: (t' ++ (w₂ ++ r)) := by simp
  have h2 := parseValue_complete hD ht (n + 1) hn (.inl hj)
  obtain ⟨rest, h3⟩ := hr.skip
  rw [← skipWhitespace_append cfg.jsonc r hw₂] at h3
  refine ⟨rest, ?_⟩
  rw [e]
  simp only [List.cons_append] at h2
  rcases hc with rfl | rfl
  · rw [parseValue_bracket] at h2
    simp [parseRun, h1, h2, h3]
  · rw [parseValue_brace] at h2
    simp [parseRun, h1, h2, h3]

end Meojson
