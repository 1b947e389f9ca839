import Verif.Proofs.Distinct

/-! NUL bytes after a text. -/

namespace Meojson
open Spec

theorem comment_last {k : Text} (h : Comment k) : ∃ t c, k = t ++ [c] ∧ c ≠ 0x00 := by
  cases h with
  | @line b _ => exact ⟨0x2f :: 0x2f :: b, 0x0a, rfl, by decide⟩
  | @block b _ => exact ⟨0x2f :: 0x2a :: (b ++ [0x2a]), 0x2f, by simp, by decide⟩

theorem wsOf_last {k : Bool} {w : Text} (h : wsOf k w) : w = [] ∨ ∃ t c, w = t ++ [c] ∧ c ≠ 0x00 := by
  have hc : ∀ {c : UInt8}, WsChar c → c ≠ 0x00 := by rintro c (rfl | rfl | rfl | rfl) <;> decide
  cases k with
  | false =>
    have h : Ws w := h
    rcases List.eq_nil_or_concat w with rfl | ⟨t, c, rfl⟩
    · exact .inl rfl
    · exact .inr ⟨t, c, by simp, hc (h c (by simp))⟩
  | true =>
    have h : WsC w := h
    induction h with
    | nil => exact .inl rfl
    | @char c t h1 _ ih =>
      rcases ih ‹_› with rfl | ⟨t', c', rfl, h'⟩
      · exact .inr ⟨[], c, rfl, hc h1⟩
      · exact .inr ⟨c :: t', c', rfl, h'⟩
    | @comment k t h1 _ ih =>
      rcases ih ‹_› with rfl | ⟨t', c', rfl, h'⟩
      · obtain ⟨t, c, rfl, hc⟩ := comment_last h1
        exact .inr ⟨t, c, by simp, hc⟩
      · exact .inr ⟨k ++ t', c', by simp, h'⟩

theorem jsonText_last_ne {k l : Bool} {t : Text} {j : Doc} (h : JsonText (lenient k l) t j) : ∃ t' c, t = t' ++ [c] ∧ c ≠ 0x00 := by
  obtain ⟨hj, w₁, b, w₂, -, h2, h3, rfl⟩ := h
  rcases wsOf_last h3 with rfl | ⟨t, c, rfl, hc⟩
  · obtain ⟨b', c, rfl, hc⟩ := val_last h2 hj
    exact ⟨w₁ ++ b', c, by simp, by rcases hc with rfl | rfl <;> decide⟩
  · exact ⟨w₁ ++ b ++ t, c, by simp, hc⟩

theorem infix_zeros {x : Text} {n : Nat} (h : [0x2a, 0x2f] <:+: x ++ List.replicate n 0x00) : [0x2a, 0x2f] <:+: x := by
  induction n generalizing x with
  | zero => simpa using h
  | succ n ih =>
    rw [show x ++ List.replicate (n + 1) (0 : UInt8) = (x ++ [0]) ++ List.replicate n 0 by simp [List.replicate_succ]] at h
    obtain ⟨p, q, e⟩ := ih h
    rcases List.eq_nil_or_concat q with rfl | ⟨q, c, rfl⟩
    · have := congrArg List.getLast? e
      simp at this
    · refine ⟨p, q, ?_⟩
      rw [List.concat_eq_append, ← List.append_assoc] at e
      exact (List.append_inj' e rfl).1

theorem stop_zeros {k : Bool} {r : Text} (n : Nat) : Stop k (r ++ List.replicate n 0x00) ↔ Stop k r := by
  cases n with
  | zero => simp
  | succ n =>
    constructor
    · intro h
      generalize hx : r ++ List.replicate (n + 1) 0x00 = x at h
      match r, hx with
      | [], _ => exact .eof
      | [c], hx =>
        simp [List.replicate_succ] at hx
        subst hx
        cases h with
        | nul => exact .nul
        | slash hk => exact .slash hk
        | badSlash hk _ _ => exact .badSlash hk (by simp) (by simp)
      | c :: d :: r, hx =>
        simp at hx
        subst hx
        cases h with
        | nul => exact .nul
        | slash hk => exact .slash hk
        | lineEof hk h => exact .lineEof hk fun h' => h (by simp [h'])
        | badSlash hk h1 h2 => exact .badSlash hk (by simpa using h1) (by simpa using h2)
        | openBlock hk h => exact .openBlock hk fun ⟨p, q, e⟩ => h ⟨p, q ++ List.replicate (n + 1) 0, by rw [← e]; simp⟩
    · intro h
      cases h with
      | eof => simp [List.replicate_succ]; exact .nul
      | nul => exact .nul
      | slash hk => exact .slash hk
      | lineEof hk h => exact .lineEof hk (by simp [h])
      | @badSlash s hk h1 h2 =>
        cases s with
        | nil => exact .badSlash hk (by simp [List.replicate_succ]) (by simp [List.replicate_succ])
        | cons d s => exact .badSlash hk (by simpa using h1) (by simpa using h2)
      | openBlock hk h => exact .openBlock hk fun h' => h (infix_zeros h')

theorem reads_zeros {k l : Bool} {s : Text} {j : Doc} (n : Nat) : Reads k l (s ++ List.replicate n 0x00) j ↔ Reads k l s j := by
  constructor
  · rintro ⟨t, r, h1, h2, e⟩
    rcases List.append_eq_append_iff.1 e with ⟨a, e1, e2⟩ | ⟨a, e1, e2⟩
    · -- the zeros begin inside `t`
      obtain ⟨t', c, rfl, hc⟩ := jsonText_last_ne h1
      rcases List.eq_nil_or_concat a with rfl | ⟨a, d, rfl⟩
      · simp at e1 e2
        subst e1
        rw [← e2] at h2
        exact ⟨_, [], h1, .eof, by simp⟩
      · exfalso
        rw [List.concat_eq_append, ← List.append_assoc] at e1
        have := (List.append_inj' e1 rfl).2
        simp at this
        subst this
        have : c ∈ List.replicate n (0 : UInt8) := by rw [e2]; simp
        exact hc (List.eq_of_mem_replicate this)
    · subst e1
      rw [e2] at h2
      exact ⟨t, a, h1, (stop_zeros n).1 h2, rfl⟩
  · rintro ⟨t, r, h1, h2, rfl⟩
    exact ⟨t, _, h1, (stop_zeros n).2 h2, by simp⟩

end Meojson
