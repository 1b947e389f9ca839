import Verif.Model.Parser
import Verif.Spec.Lenient

/-! Lemmas about `skip_comment` and `skip_whitespace`. -/

namespace Meojson
open Spec

theorem commentLoop_length (line : Bool) (s : Bytes) : (commentLoop line s).2.length ≤ s.length := by
  induction s with
  | nil => simp [commentLoop]
  | cons c s ih =>
    unfold commentLoop
    split
    · split
      · simp
      · simp; omega
    · split
      · split
        · simp; omega
        · simp; omega
      · simp; omega

theorem skipComment_length (c : UInt8) (s : Bytes) (h : (skipComment (c :: s)).1 = true) :
    (skipComment (c :: s)).2.length < (c :: s).length := by
  by_cases hc : c = 0x2f
  · subst hc
    cases s with
    | nil => simp [skipComment] at h
    | cons d s' =>
      have h1 := commentLoop_length true s'
      have h2 := commentLoop_length false s'
      simp only [skipComment] at h ⊢
      grind
  · simp [skipComment, hc] at h

theorem skipWhitespaceF_eq (j : Bool) : ∀ (n m : Nat) (s : Bytes), s.length < n → s.length < m →
    skipWhitespaceF j n s = skipWhitespaceF j m s := by
  intro n
  induction n with
  | zero => intro m s h; omega
  | succ n ih =>
    intro m s hn hm
    cases m with
    | zero => omega
    | succ m =>
      cases s with
      | nil => rfl
      | cons c s =>
        simp only [List.length_cons] at hn hm
        unfold skipWhitespaceF
        split
        · exact ih m s (by omega) (by omega)
        · split
          · split
            · simp only
              split
              · rename_i h
                have := skipComment_length c s h
                simp only [List.length_cons] at this
                exact ih m _ (by omega) (by omega)
              · rfl
            · rfl
          · rfl

theorem skipWhitespace_nil (j : Bool) : skipWhitespace j [] = .ok false [] := rfl

theorem skipWhitespace_cons (j : Bool) (c : UInt8) (s : Bytes) : skipWhitespace j (c :: s) =
    if c = 0x20 ∨ c = 0x09 ∨ c = 0x0d ∨ c = 0x0a then skipWhitespace j s
    else if c = 0x2f then
      if j then
        let r := skipComment (c :: s)
        if r.1 then skipWhitespace j r.2 else .ok false r.2
      else .ok false (c :: s)
    else if c = 0x00 then .ok false (c :: s)
    else .ok true (c :: s) := by
  unfold skipWhitespace
  simp only [List.length_cons]
  conv => lhs; unfold skipWhitespaceF
  split
  · rfl
  · split
    · split
      · simp only
        split
        · rename_i h
          have := skipComment_length c s h
          simp only [List.length_cons] at this
          exact skipWhitespaceF_eq j _ _ _ (by omega) (by omega)
        · rfl
      · rfl
    · rfl

/-- A byte at which `skip_whitespace` stops with true. -/
def Sig (c : UInt8) : Prop := ¬ WsChar c ∧ c ≠ 0x2f ∧ c ≠ 0x00

theorem skipWhitespace_sig (j : Bool) {c : UInt8} (s : Bytes) (h : Sig c) :
    skipWhitespace j (c :: s) = .ok true (c :: s) := by
  obtain ⟨h1, h2, h3⟩ := h
  rw [skipWhitespace_cons]
  have : ¬ (c = 0x20 ∨ c = 0x09 ∨ c = 0x0d ∨ c = 0x0a) := by
    intro h; apply h1; unfold WsChar; grind
  simp [this, h2, h3]

theorem commentLoop_line {b rest : Bytes} (hb : 0x0a ∉ b) :
    commentLoop true (b ++ 0x0a :: rest) = (true, rest) := by
  induction b with
  | nil => simp [commentLoop]
  | cons c b ih =>
    simp only [List.mem_cons, not_or] at hb
    have : c ≠ 0x0a := fun h => hb.1 h.symm
    simp [commentLoop, this, ih hb.2]

theorem commentLoop_line_eof {b : Bytes} (hb : 0x0a ∉ b) : commentLoop true b = (true, []) := by
  induction b with
  | nil => simp [commentLoop]
  | cons c b ih =>
    simp only [List.mem_cons, not_or] at hb
    have : c ≠ 0x0a := fun h => hb.1 h.symm
    simp [commentLoop, this, ih hb.2]

theorem commentLoop_block {b rest : Bytes} (hb : ¬ [0x2a, 0x2f] <:+: b ++ [0x2a]) :
    commentLoop false (b ++ 0x2a :: 0x2f :: rest) = (true, rest) := by
  induction b with
  | nil => simp [commentLoop]
  | cons c b ih =>
    have hb' : ¬ [0x2a, 0x2f] <:+: b ++ [0x2a] := by
      intro h; exact hb (h.trans (List.suffix_cons c _).isInfix)
    have ih := ih hb'
    simp only [List.cons_append]
    unfold commentLoop
    simp only [Bool.false_eq_true, if_false, ih]
    split
    · rfl
    · split
      · split
        · rename_i h1 h2 h3
          exfalso
          apply hb
          cases b with
          | nil => simp at h3
          | cons d b =>
            simp at h3
            subst h2 h3
            exact List.IsPrefix.isInfix ⟨b ++ [0x2a], by simp⟩
        · rfl
      · rfl

theorem skipComment_comment {k rest : Bytes} (hk : Comment k) :
    skipComment (k ++ rest) = (true, rest) := by
  cases hk with
  | line hb => simp [skipComment, commentLoop_line hb]
  | block hb => simp [skipComment, commentLoop_block hb]

theorem comment_cons {k : Text} (hk : Comment k) : ∃ k', k = 0x2f :: k' := by
  cases hk <;> exact ⟨_, rfl⟩

theorem ws_wsC {w : Text} (h : Ws w) : WsC w := by
  induction w with
  | nil => exact .nil
  | cons c w ih => exact .char (h c (by simp)) (ih fun x hx => h x (by simp [hx]))

theorem ws_wsOf {w : Text} (j : Bool) (h : Ws w) : Meojson.wsOf j w := by
  cases j
  · exact h
  · exact ws_wsC h

theorem skipWhitespace_char (j : Bool) {c : UInt8} (s : Bytes) (h : WsChar c) :
    skipWhitespace j (c :: s) = skipWhitespace j s := by
  rw [skipWhitespace_cons, if_pos]
  unfold WsChar at h; grind

theorem skipWhitespace_append (j : Bool) {w : Bytes} (rest : Bytes) (h : wsOf j w) :
    skipWhitespace j (w ++ rest) = skipWhitespace j rest := by
  cases j with
  | false =>
    have h : Ws w := h
    induction w with
    | nil => rfl
    | cons c w ih =>
      rw [List.cons_append, skipWhitespace_char _ _ (h c (by simp))]
      have hw : Ws w := fun x hx => h x (by simp [hx])
      exact ih hw hw
  | true =>
    have h : WsC w := h
    induction h with
    | nil => rfl
    | char hc _ ih => rw [List.cons_append, skipWhitespace_char _ _ hc]; exact ih ‹_›
    | @comment k t hk ht ih =>
      obtain ⟨k', rfl⟩ := comment_cons hk
      have := skipComment_comment (rest := t ++ rest) hk
      simp only [List.cons_append, List.append_assoc] at this ⊢
      rw [skipWhitespace_cons]
      simp only [this]
      simp [ih ht]

/-- Completeness of white space skipping. -/
theorem skipWhitespace_complete (j : Bool) {w : Bytes} {c : UInt8} (s : Bytes) (h : wsOf j w) (hc : Sig c) :
    skipWhitespace j (w ++ c :: s) = .ok true (c :: s) := by
  rw [skipWhitespace_append j _ h, skipWhitespace_sig j s hc]

/-! ### Soundness -/

theorem commentLoop_line_sound {s rest : Bytes} {b : Bool} (h : commentLoop true s = (b, rest)) :
    b = true ∧ ((∃ t, 0x0a ∉ t ∧ s = t ++ 0x0a :: rest) ∨ (rest = [] ∧ 0x0a ∉ s)) := by
  induction s with
  | nil => simp_all [commentLoop]
  | cons c s ih =>
    unfold commentLoop at h
    split at h
    · rename_i hc
      simp at h
      exact ⟨h.1.symm ▸ rfl, .inl ⟨[], by simp, by simp [hc, h.2]⟩⟩
    · rename_i hc
      simp only [Bool.true_eq_false, false_and, if_false, ite_self] at h
      obtain ⟨h1, h2⟩ := ih h
      refine ⟨h1, ?_⟩
      rcases h2 with ⟨t, ht, rfl⟩ | ⟨h2, h3⟩
      · exact .inl ⟨c :: t, by simp [ht]; exact fun h => hc h.symm, by simp⟩
      · exact .inr ⟨h2, by simp [h3]; exact fun h => hc h.symm⟩

theorem commentLoop_block_sound {s rest : Bytes} {b : Bool} (h : commentLoop false s = (b, rest)) :
    (b = true ∧ ∃ t, (¬ [0x2a, 0x2f] <:+: t ++ [0x2a]) ∧ s = t ++ 0x2a :: 0x2f :: rest) ∨
    (b = false ∧ rest = [] ∧ ¬ [0x2a, 0x2f] <:+: s) := by
  induction s with
  | nil => simp_all [commentLoop]
  | cons c s ih =>
    have key : commentLoop false s = (b, rest) → (¬ (c = 0x2a ∧ s.head? = some 0x2f)) →
        (b = true ∧ ∃ t, (¬ [0x2a, 0x2f] <:+: t ++ [0x2a]) ∧ c :: s = t ++ 0x2a :: 0x2f :: rest) ∨
        (b = false ∧ rest = [] ∧ ¬ [0x2a, 0x2f] <:+: c :: s) := by
      intro h hne
      rcases ih h with ⟨h1, t, ht, rfl⟩ | ⟨h1, h2, h3⟩
      · refine .inl ⟨h1, c :: t, ?_, by simp⟩
        intro hin
        rw [List.cons_append, List.infix_cons_iff] at hin
        rcases hin with hin | hin
        · apply hne
          rw [List.cons_prefix_cons] at hin
          refine ⟨hin.1.symm, ?_⟩
          obtain ⟨u, hu⟩ := hin.2
          cases t with
          | nil => simp at hu
          | cons d t => simp at hu; simp [← hu.1]
        · exact ht hin
      · refine .inr ⟨h1, h2, ?_⟩
        rw [List.infix_cons_iff]
        rintro (hin | hin)
        · apply hne
          rw [List.cons_prefix_cons] at hin
          refine ⟨hin.1.symm, ?_⟩
          obtain ⟨u, hu⟩ := hin.2
          simp [← hu]
        · exact h3 hin
    unfold commentLoop at h
    split at h
    · rename_i hc
      simp only [Bool.false_eq_true, if_false] at h
      exact key h (by rintro ⟨h, -⟩; rw [h] at hc; exact absurd hc (by decide))
    · split at h
      · rename_i hc
        split at h
        · rename_i h2
          left
          simp only [Prod.mk.injEq] at h
          refine ⟨h.1.symm, [], ?_, ?_⟩
          · intro hin; exact absurd hin.length_le (by simp)
          · rw [hc]
            cases s with
            | nil => simp at h2
            | cons d s => simp at h2 h; simp [h2, h.2]
        · rename_i h2
          exact key h (by simp_all)
      · rename_i hc
        exact key h (by simp_all)

/-- What may precede the end of a text after which `skip_comment` gives up: see `BadComment`. -/
theorem skipComment_sound {s rest : Bytes} {b : Bool} (h : skipComment (0x2f :: s) = (b, rest)) :
    (b = true ∧ ∃ k, 0x2f :: s = k ++ rest ∧ (Comment k ∨ (rest = [] ∧ ∃ t, 0x0a ∉ t ∧ k = 0x2f :: 0x2f :: t))) ∨
    (b = false ∧ (s = [] ∨ (∃ d s', s = d :: s' ∧ d ≠ 0x2f ∧ d ≠ 0x2a) ∨
      (∃ s', s = 0x2a :: s' ∧ ¬ [0x2a, 0x2f] <:+: s'))) := by
  unfold skipComment at h
  simp only [ne_eq, not_true_eq_false, if_false] at h
  cases s with
  | nil => simp at h; simp [h.1]
  | cons d s' =>
    simp only at h
    split at h
    · rename_i hd
      subst hd
      obtain ⟨h1, h2⟩ := commentLoop_line_sound h
      left
      refine ⟨h1, ?_⟩
      rcases h2 with ⟨t, ht, rfl⟩ | ⟨h2, h3⟩
      · exact ⟨0x2f :: 0x2f :: (t ++ [0x0a]), by simp, .inl (.line ht)⟩
      · exact ⟨0x2f :: 0x2f :: s', by simp [h2], .inr ⟨h2, s', h3, rfl⟩⟩
    · split at h
      · rename_i hd
        subst hd
        rcases commentLoop_block_sound h with ⟨h1, t, ht, rfl⟩ | ⟨h1, h2, h3⟩
        · exact .inl ⟨h1, 0x2f :: 0x2a :: (t ++ [0x2a, 0x2f]), by simp, .inl (.block ht)⟩
        · exact .inr ⟨h1, .inr (.inr ⟨s', rfl, h3⟩)⟩
      · rename_i h1 h2
        simp at h
        exact .inr ⟨h.1.symm ▸ rfl, .inr (.inl ⟨d, s', rfl, h1, h2⟩)⟩

theorem wsC_append {a b : Text} (ha : WsC a) (hb : WsC b) : WsC (a ++ b) := by
  induction ha with
  | nil => exact hb
  | char hc _ ih => exact .char hc ih
  | comment hk _ ih => rw [List.append_assoc]; exact .comment hk ih

theorem ws_append {a b : Text} (ha : Ws a) (hb : Ws b) : Ws (a ++ b) := by
  intro c hc
  rcases List.mem_append.1 hc with h | h
  · exact ha c h
  · exact hb c h

theorem wsOf_append {j : Bool} {a b : Text} (ha : wsOf j a) (hb : wsOf j b) : wsOf j (a ++ b) := by
  cases j
  · exact ws_append ha hb
  · exact wsC_append ha hb

theorem wsOf_nil (j : Bool) : wsOf j [] := by
  cases j
  · exact fun c hc => by simp at hc
  · exact WsC.nil

theorem wsOf_char {j : Bool} {c : UInt8} {w : Text} (hc : WsChar c) (h : wsOf j w) : wsOf j (c :: w) := by
  cases j
  · intro x hx
    rcases List.mem_cons.1 hx with rfl | hx
    · exact hc
    · exact h x hx
  · exact WsC.char hc h

theorem skipWhitespace_sound (j : Bool) (s : Bytes) :
    (∃ w c r, s = w ++ c :: r ∧ wsOf j w ∧ Sig c ∧ skipWhitespace j s = .ok true (c :: r)) ∨
    (∃ w r rest, s = w ++ r ∧ wsOf j w ∧ Stop j r ∧ skipWhitespace j s = .ok false rest) := by
  induction hn : s.length using Nat.strongRecOn generalizing s with
  | _ n ih =>
    cases s with
    | nil => exact .inr ⟨[], [], [], rfl, wsOf_nil j, .eof, rfl⟩
    | cons c s =>
      subst hn
      have shift : ∀ (k s' : Bytes), c :: s = k ++ s' → s'.length < (c :: s).length → wsOf j k →
          skipWhitespace j (c :: s) = skipWhitespace j s' →
          (∃ w d r, c :: s = w ++ d :: r ∧ wsOf j w ∧ Sig d ∧ skipWhitespace j (c :: s) = .ok true (d :: r)) ∨
          (∃ w r rest, c :: s = w ++ r ∧ wsOf j w ∧ Stop j r ∧ skipWhitespace j (c :: s) = .ok false rest) := by
        intro k s' h1 h2 h3 h4
        rcases ih _ h2 s' rfl with ⟨w, d, r, e1, e2, e3, e4⟩ | ⟨w, r, rest, e1, e2, e3, e4⟩
        · exact .inl ⟨k ++ w, d, r, by simp [h1, e1], wsOf_append h3 e2, e3, by rw [h4, e4]⟩
        · exact .inr ⟨k ++ w, r, rest, by simp [h1, e1], wsOf_append h3 e2, e3, by rw [h4, e4]⟩
      by_cases hw : WsChar c
      · exact shift [c] s rfl (by simp) (wsOf_char hw (wsOf_nil j)) (skipWhitespace_char j s hw)
      · by_cases hs : c = 0x2f
        · subst hs
          cases j with
          | false =>
            refine .inr ⟨[], _, 0x2f :: s, rfl, wsOf_nil _, .slash rfl, ?_⟩
            rw [skipWhitespace_cons]; simp
          | true =>
            have hcons := skipWhitespace_cons true 0x2f s
            simp only [show ¬ ((0x2f : UInt8) = 0x20 ∨ (0x2f : UInt8) = 0x09 ∨ (0x2f : UInt8) = 0x0d ∨ (0x2f : UInt8) = 0x0a) by decide,
              if_false, if_true] at hcons
            cases hr : skipComment (0x2f :: s) with
            | mk b rest =>
            rw [hr] at hcons
            rcases skipComment_sound hr with ⟨rfl, k, hk, h⟩ | ⟨rfl, h⟩
            · simp only [if_true] at hcons
              rcases h with h | ⟨rfl, t, ht, rfl⟩
              · refine shift k rest hk ?_ ?_ hcons
                · have := congrArg List.length hk
                  obtain ⟨k', rfl⟩ := comment_cons h
                  simp only [List.length_cons, List.length_append] at this ⊢
                  omega
                · have := WsC.comment h .nil
                  rw [List.append_nil] at this
                  exact this
              · refine .inr ⟨[], 0x2f :: s, [], rfl, wsOf_nil _, ?_, ?_⟩
                · rw [hk, List.append_nil]; exact .lineEof rfl ht
                · rw [hcons]; rfl
            · simp only [Bool.false_eq_true, if_false] at hcons
              refine .inr ⟨[], 0x2f :: s, rest, rfl, wsOf_nil _, ?_, hcons⟩
              rcases h with rfl | ⟨d, s', rfl, h1, h2⟩ | ⟨s', rfl, h⟩
              · exact .badSlash rfl (by simp) (by simp)
              · exact .badSlash rfl (by simpa using h1) (by simpa using h2)
              · exact .openBlock rfl h
        · by_cases h0 : c = 0
          · subst h0
            refine .inr ⟨[], _, 0 :: s, rfl, wsOf_nil _, .nul, ?_⟩
            rw [skipWhitespace_cons]; simp
          · exact .inl ⟨[], c, s, rfl, wsOf_nil _, ⟨hw, hs, h0⟩, skipWhitespace_sig j s ⟨hw, hs, h0⟩⟩

/-- Inversion of a successful skip. -/
theorem skipWhitespace_true {j : Bool} {s rest : Bytes} (h : skipWhitespace j s = .ok true rest) :
    ∃ w c r, rest = c :: r ∧ s = w ++ c :: r ∧ wsOf j w ∧ Sig c := by
  rcases skipWhitespace_sound j s with ⟨w, c, r, e1, e2, e3, e4⟩ | ⟨w, r, rest', e1, e2, e3, e4⟩
  · rw [h] at e4; cases e4; exact ⟨w, c, r, rfl, e1, e2, e3⟩
  · rw [h] at e4; cases e4

theorem skipWhitespace_false {j : Bool} {s rest : Bytes} (h : skipWhitespace j s = .ok false rest) :
    ∃ w r, s = w ++ r ∧ wsOf j w ∧ Stop j r := by
  rcases skipWhitespace_sound j s with ⟨w, c, r, e1, e2, e3, e4⟩ | ⟨w, r, rest', e1, e2, e3, e4⟩
  · rw [h] at e4; cases e4
  · exact ⟨w, r, e1, e2, e3⟩

theorem Stop.skip {j : Bool} {r : Text} (h : Stop j r) : ∃ rest, skipWhitespace j r = .ok false rest := by
  cases h with
  | eof => exact ⟨[], rfl⟩
  | nul => exact ⟨_, by rw [skipWhitespace_cons]; simp; rfl⟩
  | slash h => subst h; exact ⟨_, by rw [skipWhitespace_cons]; simp; rfl⟩
  | lineEof h ht =>
    subst h
    exact ⟨[], by rw [skipWhitespace_cons]; simp [skipComment, commentLoop_line_eof ht, skipWhitespace_nil]⟩
  | @badSlash s h h1 h2 =>
    subst h
    refine ⟨(skipComment (0x2f :: s)).2, ?_⟩
    rw [skipWhitespace_cons]
    have : (skipComment (0x2f :: s)).1 = false := by
      cases s with
      | nil => rfl
      | cons d s => simp at h1 h2; simp [skipComment, h1, h2]
    simp [this]
  | @openBlock s h h1 =>
    subst h
    refine ⟨(skipComment (0x2f :: 0x2a :: s)).2, ?_⟩
    rw [skipWhitespace_cons]
    have : (skipComment (0x2f :: 0x2a :: s)).1 = false := by
      simp only [skipComment]
      simp
      cases hc : commentLoop false s with
      | mk b rest =>
        rcases commentLoop_block_sound hc with ⟨_, t, ht, rfl⟩ | ⟨h, _⟩
        · exact absurd ⟨t, rest, by simp⟩ h1
        · exact h
    simp [this]

end Meojson
