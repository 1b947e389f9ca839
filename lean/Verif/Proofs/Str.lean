import Verif.Proofs.Utf8
import Verif.Spec.Accel
import Verif.Spec.Located

/-! Lemmas about `parse_stdstring`. -/

namespace Meojson
open Spec

theorem between_append (p s : Bytes) : between (p ++ s) s = p := by
  simp [between]

theorem between_self (s : Bytes) : between s s = [] := by
  simp [between]

/-! ### Block scanning -/

theorem scanBlock_eq {T : Traits} {s : Bytes} (hw : ∀ n, T.step ≤ n → T.whole n = true) (h : T.step ≤ s.length) :
    scanBlock T s = some (T.scan (s.take T.step)) := by
  simp [scanBlock, h, hw _ h, Traits.scan]

theorem accelLoop_spec {T : Traits} (hT : T.Sound) : ∀ (n : Nat) (s : Bytes), s.length < n →
    ∃ p r, s = p ++ r ∧ (∀ c ∈ p, Unescaped c) ∧ accelLoop T n s = .ok () r := by
  intro n
  induction n with
  | zero => intro s h; omega
  | succ n ih =>
    intro s hn
    by_cases hs : T.step ≤ s.length
    · have hb : (s.take T.step).length = T.step := by simp; omega
      unfold accelLoop
      simp only [ge_iff_le, hs, if_true, scanBlock_eq hT.whole hs]
      cases hz : T.isAllZero (T.scan (s.take T.step)) with
      | true =>
        obtain ⟨p, r, h1, h2, h3⟩ := ih (s.drop T.step) (by have := hT.pos; simp; omega)
        refine ⟨s.take T.step ++ p, r, ?_, ?_, by simp [h3]⟩
        · rw [List.append_assoc, ← h1, List.take_append_drop]
        · intro c hc
          rcases List.mem_append.1 hc with h | h
          · exact hT.clean _ hb hz c h
          · exact h2 c h
      | false =>
        obtain ⟨h1, h2⟩ := hT.index _ hb hz
        rw [List.take_take, Nat.min_eq_left (by omega)] at h2
        refine ⟨_, _, (List.take_append_drop _ s).symm, h2, ?_⟩
        simp; omega
    · exact ⟨[], s, rfl, by simp, by simp [accelLoop, hs]⟩

theorem accelStep_spec {accel : Option Traits} (ha : AccelOk accel) (s : Bytes) (hs : s ≠ []) :
    ∃ p r, s = p ++ r ∧ (∀ c ∈ p, Unescaped c) ∧ accelStep accel s = .ok (decide (r ≠ [])) r ∧
      (accel = none → p = []) := by
  cases accel with
  | none => exact ⟨[], s, rfl, by simp, by simp [accelStep, hs], fun _ => rfl⟩
  | some T =>
    obtain ⟨p, r, h1, h2, h3⟩ := accelLoop_spec ha (s.length + 1) s (by omega)
    exact ⟨p, r, h1, h2, by simp [accelStep, skipStringLiteralWithAccel, h3], by simp⟩

theorem not_unescaped_backslash : ¬ Unescaped 0x5c := by simp [Unescaped]
theorem not_unescaped_quote : ¬ Unescaped 0x22 := by simp [Unescaped]

/-- Before a special byte the block scan does nothing. -/
theorem accelStep_special {accel : Option Traits} (ha : AccelOk accel) {c : UInt8} (s : Bytes) (hc : ¬ Unescaped c) :
    accelStep accel (c :: s) = .ok true (c :: s) := by
  obtain ⟨p, r, h1, h2, h3, _⟩ := accelStep_spec ha (c :: s) (by simp)
  cases p with
  | nil => simp at h1; subst h1; simpa using h3
  | cons d p =>
    simp at h1
    exact absurd (h2 d (by simp)) (by rw [← h1.1]; exact hc)

/-! ### One code unit -/

theorem u16_ge (cp : UInt16) (n : UInt16) : n ≤ cp ↔ n.toNat ≤ cp.toNat := UInt16.le_iff_toNat_le

theorem unicodeUnit_plain (ph cp : UInt16) (h1 : ¬ HighSurrogate cp.toNat) (h2 : ¬ LowSurrogate cp.toNat) :
    unicodeUnit ph cp = some (ph, utf8 cp.toNat) := by
  unfold HighSurrogate at h1
  unfold LowSurrogate at h2
  have hlt := cp.toNat_lt
  unfold unicodeUnit
  simp only [UInt16.le_iff_toNat_le]
  simp only [show (0xD800 : UInt16).toNat = 0xD800 from rfl, show (0xDBFF : UInt16).toNat = 0xDBFF from rfl,
    show (0xDC00 : UInt16).toNat = 0xDC00 from rfl, show (0xDFFF : UInt16).toNat = 0xDFFF from rfl]
  rw [if_neg h1, if_neg h2, utf8Bytes_eq]
  · simp
  · apply isValidChar_of <;> simp <;> omega

theorem unicodeUnit_high (ph cp : UInt16) (h1 : HighSurrogate cp.toNat) :
    unicodeUnit ph cp = if ph ≠ 0 then none else some (cp, []) := by
  unfold HighSurrogate at h1
  unfold unicodeUnit
  simp only [UInt16.le_iff_toNat_le]
  simp only [show (0xD800 : UInt16).toNat = 0xD800 from rfl, show (0xDBFF : UInt16).toNat = 0xDBFF from rfl]
  rw [if_pos h1]

theorem unicodeUnit_low (ph cp : UInt16) {k : Nat} (h1 : LowSurrogate cp.toNat) (hp : HighSurrogate ph.toNat)
    (hk : k = pairCp ph.toNat cp.toNat) : unicodeUnit ph cp = some (0, utf8 k) := by
  unfold HighSurrogate at hp
  unfold LowSurrogate at h1
  unfold unicodeUnit
  simp only [UInt16.le_iff_toNat_le]
  simp only [show (0xD800 : UInt16).toNat = 0xD800 from rfl, show (0xDBFF : UInt16).toNat = 0xDBFF from rfl,
    show (0xDC00 : UInt16).toNat = 0xDC00 from rfl, show (0xDFFF : UInt16).toNat = 0xDFFF from rfl]
  have h0 : ph ≠ 0 := by rintro rfl; simp at hp
  rw [if_neg (by omega), if_pos h1, if_neg h0]
  have := surrogate_cp ph cp hp.1 hp.2 h1.1 h1.2
  rw [← hk] at this
  rw [utf8Bytes_eq, this]
  rw [this, hk]
  unfold pairCp
  apply isValidChar_of <;> omega

theorem unicodeUnit_low_zero (cp : UInt16) (h1 : LowSurrogate cp.toNat) : unicodeUnit 0 cp = none := by
  unfold LowSurrogate at h1
  unfold unicodeUnit
  simp only [UInt16.le_iff_toNat_le]
  simp only [show (0xD800 : UInt16).toNat = 0xD800 from rfl, show (0xDBFF : UInt16).toNat = 0xDBFF from rfl,
    show (0xDC00 : UInt16).toNat = 0xDC00 from rfl, show (0xDFFF : UInt16).toNat = 0xDFFF from rfl]
  rw [if_neg (by omega), if_pos h1]; simp

theorem skipUnicodeEscape_hex {h : Bytes} {u : Nat} (hx : Hex4 h u) (ph : UInt16) (s : Bytes) :
    u < 65536 ∧ skipUnicodeEscape ph (h ++ s) =
      match unicodeUnit ph (UInt16.ofNat u) with
      | none => .fail
      | some r => .ok r s := by
  obtain ⟨h1, h2⟩ := hexLoop_complete hx s
  exact ⟨h1, by simp [skipUnicodeEscape, h2]; rfl⟩

theorem ofNat_toNat16 {u : Nat} (h : u < 65536) : (UInt16.ofNat u).toNat = u := by
  rw [UInt16.toNat_ofNat']; omega

/-! ### One iteration of the loop, at a special byte -/

theorem stringLoop_quote {accel : Option Traits} (ha : AccelOk accel) (n : Nat) (res beg : Bytes) (ph : UInt16) (s : Bytes) :
    stringLoop accel (n + 1) res beg ph (0x22 :: s) =
      if ph ≠ 0 then .fail else .ok (res ++ between beg (0x22 :: s)) s := by
  rw [stringLoop, accelStep_special ha s not_unescaped_quote]
  simp

theorem stringLoop_u {accel : Option Traits} (ha : AccelOk accel) (n : Nat) (res beg : Bytes) (ph : UInt16) (s : Bytes) :
    stringLoop accel (n + 1) res beg ph (0x5c :: 0x75 :: s) =
      (skipUnicodeEscape ph s).bind fun r s' =>
        stringLoop accel n (res ++ between beg (0x5c :: 0x75 :: s) ++ r.2) s' r.1 s' := by
  rw [stringLoop, accelStep_special ha _ not_unescaped_backslash]
  simp

theorem stringLoop_escape {accel : Option Traits} (ha : AccelOk accel) (n : Nat) (res beg : Bytes) (ph : UInt16) (d : UInt8) (s : Bytes)
    (hd : d ≠ 0x75) :
    stringLoop accel (n + 1) res beg ph (0x5c :: d :: s) =
      if ph ≠ 0 then .fail
      else match simpleEscape d with
        | none => .fail
        | some e => stringLoop accel n (res ++ between beg (0x5c :: d :: s) ++ [e]) s ph s := by
  rw [stringLoop, accelStep_special ha _ not_unescaped_backslash]
  simp [hd]
  rfl

theorem simpleEscape_complete {l c : UInt8} (h : SimpleEscape l c) : simpleEscape l = some c ∧ l ≠ 0x75 := by
  cases h <;> decide

theorem simpleEscape_sound {l c : UInt8} (h : simpleEscape l = some c) : SimpleEscape l c := by
  unfold simpleEscape at h
  repeat' split at h
  all_goals first | (simp at h; done) | skip
  all_goals (simp only [Option.some.injEq] at h; subst h; subst_vars; constructor)

/-! ### Completeness -/

/-- The block scan passes over the plain bytes `p` and stops at `r`. -/
def Skips (accel : Option Traits) (p r : Bytes) : Prop := (∀ c ∈ p, Unescaped c) ∧ accelStep accel (p ++ r) = .ok true r

theorem skips_nil {accel : Option Traits} (ha : AccelOk accel) (r : Bytes) : Skips accel [] (0x5c :: r) :=
  ⟨by simp, accelStep_special ha r not_unescaped_backslash⟩

theorem stringLoop_skips {accel : Option Traits} {p s : Bytes} (h : Skips accel p (0x5c :: 0x75 :: s)) (n : Nat) (res pend : Bytes) (ph : UInt16) :
    stringLoop accel (n + 1) res (pend ++ (p ++ 0x5c :: 0x75 :: s)) ph (p ++ 0x5c :: 0x75 :: s) =
      (skipUnicodeEscape ph s).bind fun r s' => stringLoop accel n (res ++ (pend ++ p) ++ r.2) s' r.1 s' := by
  have hb := between_append (pend ++ p) (0x5c :: 0x75 :: s)
  rw [List.append_assoc] at hb
  obtain ⟨-, h⟩ := h
  cases hcur : (p ++ 0x5c :: 0x75 :: s : Bytes) with
  | nil => simp at hcur
  | cons c₀ s₀ =>
    rw [hcur] at h
    rw [stringLoop, h, ← hcur]
    simp [hb]

theorem charsAt_plain {pass : Text → Text → Prop} {r p body s : Text} (hp : ∀ c ∈ p, Unescaped c) (h : CharsAt pass r (p ++ body) s) :
    ∃ s', s = p ++ s' ∧ CharsAt pass r body s' := by
  induction p generalizing s with
  | nil => exact ⟨s, rfl, h⟩
  | cons c p ih =>
    generalize hb : c :: p ++ body = b at h
    cases h with
    | nil => simp at hb
    | @cons t s₁ ts ss h1 h2 =>
      have hc := hp c (by simp)
      have hne : c ≠ 0x5c := fun h => not_unescaped_backslash (h ▸ hc)
      cases h1 with
      | plain hc' =>
        simp at hb
        obtain ⟨rfl, rfl⟩ := hb
        obtain ⟨s', rfl, h3⟩ := ih (fun x hx => hp x (by simp [hx])) h2
        exact ⟨s', by simp, h3⟩
      | simple _ => simp at hb; exact absurd hb.1 hne
      | unicode _ _ _ => simp at hb; exact absurd hb.1 hne
      | pair _ _ _ _ _ => simp at hb; exact absurd hb.1 hne

/-- Mid text after a high half. -/
theorem stringLoop_mid {accel : Option Traits} {h₂ rest : Bytes} {u₂ : Nat} (hx₂ : Hex4 h₂ u₂) (hl : LowSurrogate u₂) {m ms r : Text}
    (hm : MidAt (Skips accel) r m ms) : r = 0x5c :: 0x75 :: (h₂ ++ rest) →
    ∀ (n : Nat) (res : Bytes) (ph : UInt16) (cp : Nat), HighSurrogate ph.toNat → cp = pairCp ph.toNat u₂ → (m ++ r).length < n →
      ∃ k, rest.length < k ∧ k < n ∧ stringLoop accel n res (m ++ r) ph (m ++ r) =
        stringLoop accel k (res ++ ms ++ utf8 cp) rest 0 rest := by
  induction hm with
  | @last p hp =>
    intro hr n res ph cp hph hcp hn
    subst hr
    cases n with
    | zero => omega
    | succ n =>
      obtain ⟨h1, h2⟩ := skipUnicodeEscape_hex hx₂ ph rest
      have hl' : LowSurrogate (UInt16.ofNat u₂).toNat := by rw [ofNat_toNat16 h1]; exact hl
      refine ⟨n, by simp at hn; omega, by omega, ?_⟩
      have := stringLoop_skips hp n res [] ph
      simp only [List.nil_append] at this
      rw [this, h2, unicodeUnit_low _ _ (k := cp) hl' hph (by rw [ofNat_toNat16 h1]; exact hcp)]
      simp
  | @unicode p h u t s hp hx hnh hnl _ ih =>
    intro hr n res ph cp hph hcp hn
    cases n with
    | zero => omega
    | succ n =>
      obtain ⟨h1, h2⟩ := skipUnicodeEscape_hex hx ph (t ++ r)
      have := stringLoop_skips hp n res [] ph
      simp only [List.nil_append] at this
      simp only [List.cons_append, List.append_assoc] at hn ⊢
      rw [this, h2, unicodeUnit_plain _ _ (by rw [ofNat_toNat16 h1]; exact hnh) (by rw [ofNat_toNat16 h1]; exact hnl), ofNat_toNat16 h1]
      obtain ⟨k, hk, hk', h3⟩ := ih hr n (res ++ p ++ utf8 u) ph cp hph hcp (by simp at hn ⊢; omega)
      refine ⟨k, hk, by omega, ?_⟩
      simp only [Res.bind_ok, h3]
      simp

theorem stringLoop_complete {accel : Option Traits} (ha : AccelOk accel) : ∀ (n : Nat) (body s res pend rest : Bytes),
    CharsAt (Skips accel) (0x22 :: rest) body s → (body ++ 0x22 :: rest).length < n →
    stringLoop accel n res (pend ++ (body ++ 0x22 :: rest)) 0 (body ++ 0x22 :: rest) = .ok (res ++ pend ++ s) rest := by
  intro n
  induction n using Nat.strongRecOn with
  | _ n ih =>
  intro body s res pend rest hb hn
  cases n with
  | zero => omega
  | succ n =>
    -- consume what the block scan skips
    obtain ⟨p, r, h1, h2, h3, -⟩ := accelStep_spec ha (body ++ 0x22 :: rest) (by simp)
    have hp : ∃ body', body = p ++ body' ∧ r = body' ++ 0x22 :: rest := by
      rcases List.append_eq_append_iff.1 h1 with ⟨a, e1, e2⟩ | ⟨a, e1, e2⟩
      · cases a with
        | nil => exact ⟨[], by simp at e1; simp [e1], by simp at e2; simp [e2]⟩
        | cons x a =>
          simp at e2
          exact absurd (h2 x (by rw [e1]; simp)) (by rw [← e2.1]; exact not_unescaped_quote)
      · exact ⟨a, e1, e2⟩
    obtain ⟨body', rfl, rfl⟩ := hp
    obtain ⟨s', rfl, hb'⟩ := charsAt_plain h2 hb
    clear hb
    cases hb' with
    | nil =>
      cases hcur : (p ++ [] ++ 0x22 :: rest : Bytes) with
      | nil => simp at hcur
      | cons c₀ s₀ =>
        rw [hcur] at h3
        rw [stringLoop, h3]
        rw [← hcur]
        have := between_append (pend ++ p) (0x22 :: rest)
        simp at this
        simp [this]
    | @cons t s₁ ts ss hc hcs =>
      cases hc with
      | @plain c hc =>
        cases hcur : (p ++ ([c] ++ ts) ++ 0x22 :: rest : Bytes) with
        | nil => simp at hcur
        | cons c₀ s₀ =>
          have hlen := congrArg List.length hcur
          rw [hcur] at h3
          rw [stringLoop, h3, ← hcur]
          obtain ⟨hc1, hc2, hc3⟩ := hc
          have hc1' : ¬ c < 0x20 := by simpa using hc1
          have hc4 : ¬ (c = 0x09 ∨ c = 0x0d ∨ c = 0x0a) := by
            rintro (rfl | rfl | rfl) <;> simp at hc1'
          have := ih n (by omega) ts ss res (pend ++ p ++ [c]) rest hcs (by simp at hn ⊢; omega)
          simp only [List.append_assoc, List.cons_append, List.nil_append] at this ⊢
          simp [hc2, hc3, hc4, hc1', this]
      | simple he =>
        rename_i l e
        obtain ⟨he1, he2⟩ := simpleEscape_complete he
        have hpn : stringLoop accel (n + 1) res (pend ++ (p ++ ([0x5c, l] ++ ts) ++ 0x22 :: rest)) 0 (p ++ ([0x5c, l] ++ ts) ++ 0x22 :: rest) =
            stringLoop accel n (res ++ (pend ++ p) ++ [e]) (ts ++ 0x22 :: rest) 0 (ts ++ 0x22 :: rest) := by
          cases hcur : (p ++ ([0x5c, l] ++ ts) ++ 0x22 :: rest : Bytes) with
          | nil => simp at hcur
          | cons c₀ s₀ =>
            rw [hcur] at h3
            rw [stringLoop, h3, ← hcur]
            have := between_append (pend ++ p) (0x5c :: l :: (ts ++ 0x22 :: rest))
            simp only [List.append_assoc] at this
            simp [he1, he2, this]
        rw [hpn]
        have := ih n (by omega) ts ss (res ++ (pend ++ p) ++ [e]) [] rest hcs (by simp at hn ⊢; omega)
        simp only [List.nil_append] at this
        rw [this]; simp
      | @unicode h u hx hnh hnl =>
        obtain ⟨k1, k2⟩ := skipUnicodeEscape_hex hx 0 (ts ++ 0x22 :: rest)
        rw [unicodeUnit_plain _ _ (by rw [ofNat_toNat16 k1]; exact hnh) (by rw [ofNat_toNat16 k1]; exact hnl), ofNat_toNat16 k1] at k2
        have hpn : stringLoop accel (n + 1) res (pend ++ (p ++ ((0x5c :: 0x75 :: h) ++ ts) ++ 0x22 :: rest)) 0 (p ++ ((0x5c :: 0x75 :: h) ++ ts) ++ 0x22 :: rest) =
            stringLoop accel n (res ++ (pend ++ p) ++ utf8 u) (ts ++ 0x22 :: rest) 0 (ts ++ 0x22 :: rest) := by
          cases hcur : (p ++ ((0x5c :: 0x75 :: h) ++ ts) ++ 0x22 :: rest : Bytes) with
          | nil => simp at hcur
          | cons c₀ s₀ =>
            rw [hcur] at h3
            rw [stringLoop, h3, ← hcur]
            have := between_append (pend ++ p) (0x5c :: 0x75 :: (h ++ (ts ++ 0x22 :: rest)))
            simp only [List.append_assoc] at this
            simp [k2, this]
        rw [hpn]
        have := ih n (by omega) ts ss (res ++ (pend ++ p) ++ utf8 u) [] rest hcs (by simp at hn ⊢; omega)
        simp only [List.nil_append] at this
        rw [this]; simp
      | @pair h₁ u₁ m ms h₂ u₂ cp hx₁ hx₂ hh hl hm hcp =>
        obtain ⟨k1, k2⟩ := skipUnicodeEscape_hex hx₁ 0 (m ++ 0x5c :: 0x75 :: (h₂ ++ (ts ++ 0x22 :: rest)))
        have hh' : HighSurrogate (UInt16.ofNat u₁).toNat := by rw [ofNat_toNat16 k1]; exact hh
        rw [unicodeUnit_high _ _ hh'] at k2
        have hpn : stringLoop accel (n + 1) res (pend ++ (p ++ ((0x5c :: 0x75 :: (h₁ ++ (m ++ 0x5c :: 0x75 :: h₂))) ++ ts) ++ 0x22 :: rest)) 0 (p ++ ((0x5c :: 0x75 :: (h₁ ++ (m ++ 0x5c :: 0x75 :: h₂))) ++ ts) ++ 0x22 :: rest) =
            stringLoop accel n (res ++ (pend ++ p)) (m ++ 0x5c :: 0x75 :: (h₂ ++ (ts ++ 0x22 :: rest))) (UInt16.ofNat u₁) (m ++ 0x5c :: 0x75 :: (h₂ ++ (ts ++ 0x22 :: rest))) := by
          cases hcur : (p ++ ((0x5c :: 0x75 :: (h₁ ++ (m ++ 0x5c :: 0x75 :: h₂))) ++ ts) ++ 0x22 :: rest : Bytes) with
          | nil => simp at hcur
          | cons c₀ s₀ =>
            rw [hcur] at h3
            rw [stringLoop, h3, ← hcur]
            have := between_append (pend ++ p) (0x5c :: 0x75 :: (h₁ ++ (m ++ 0x5c :: 0x75 :: (h₂ ++ (ts ++ 0x22 :: rest)))))
            simp only [List.append_assoc] at this
            simp [k2, this]
        rw [hpn]
        obtain ⟨k, hk1, hk2, hk3⟩ := stringLoop_mid hx₂ hl hm rfl n (res ++ (pend ++ p)) (UInt16.ofNat u₁) cp hh' (by rw [ofNat_toNat16 k1]; exact hcp)
          (by simp at hn ⊢; omega)
        rw [hk3]
        have := ih k (by omega) ts ss (res ++ (pend ++ p) ++ ms ++ utf8 cp) [] rest hcs hk1
        simp only [List.nil_append] at this
        rw [this]; simp

theorem parseStdstring_complete_at {accel : Option Traits} (ha : AccelOk accel) {t s rest : Text} (h : StrAt (Skips accel) rest t s) :
    parseStdstring accel (t ++ rest) = .ok s rest := by
  obtain ⟨b, h1, rfl⟩ := h
  have := stringLoop_complete ha ((b ++ 0x22 :: rest).length + 1) b s [] [] rest h1 (by omega)
  simp only [List.nil_append] at this
  simpa [parseStdstring] using this

/-! The lenient languages -/

/-- The block scan passes over every plain byte, wherever it stands. -/
def Greedy (accel : Option Traits) : Prop :=
  ∀ (c : UInt8) (s : Bytes), Unescaped c → s ≠ [] → accelStep accel (c :: s) = accelStep accel s

theorem mid_at {pass : Text → Text → Prop} {loose : Bool} (h0 : ∀ r, pass [] (0x5c :: r))
    (key : ∀ {c : UInt8} {p q : Bytes}, loose = true → Unescaped c → pass p (0x5c :: q) → pass (c :: p) (0x5c :: q)) {m ms : Text}
    (hm : Mid loose m ms) (r : Text) : MidAt pass (0x5c :: r) m ms := by
  induction hm with
  | nil => exact .last (h0 _)
  | @unicode h u t s hx h1 h2 _ ih => exact MidAt.unicode (p := []) (h0 _) hx h1 h2 ih
  | @plain c t s hl hc _ ih =>
    cases ih with
    | last hp => exact .last (key hl hc hp)
    | unicode hp hx h1 h2 h3 => exact MidAt.unicode (key hl hc hp) hx h1 h2 h3

/-- A literal of the lenient language, where runs of plain bytes may stand between the halves of a pair if `loose`. -/
theorem lenientStr_pass {pass : Text → Text → Prop} {loose : Bool} (h0 : ∀ r, pass [] (0x5c :: r))
    (key : ∀ {c : UInt8} {p q : Bytes}, loose = true → Unescaped c → pass p (0x5c :: q) → pass (c :: p) (0x5c :: q)) {t s : Text}
    (h : LenientStr loose t s) (r : Text) : StrAt pass r t s := by
  obtain ⟨b, hb, rfl⟩ := h
  refine ⟨b, ?_, rfl⟩
  generalize 0x22 :: r = r
  induction hb with
  | nil => exact .nil
  | cons h _ ih =>
    refine .cons ?_ ih
    cases h with
    | plain h => exact .plain h
    | simple h => exact .simple h
    | unicode h1 h2 h3 => exact .unicode h1 h2 h3
    | pair h1 h2 h3 h4 h5 h6 => exact .pair h1 h2 h3 h4 (mid_at h0 key h5 _) h6

theorem lenientStr_at {accel : Option Traits} {loose : Bool} (ha : AccelOk accel) (hg : loose = true → Greedy accel) {t s : Text}
    (h : LenientStr loose t s) (r : Text) : StrAt (Skips accel) r t s := by
  refine lenientStr_pass (skips_nil ha) ?_ h r
  intro c p q hl hc hp
  refine ⟨by simpa using ⟨hc, hp.1⟩, ?_⟩
  rw [List.cons_append, hg hl c _ hc (by simp)]
  exact hp.2

theorem strChar_lenient {loose : Bool} {t s : Text} (h : StrChar t s) : LenientChar loose t s := by
  cases h with
  | plain h => exact .plain h
  | simple h => exact .simple h
  | unicode h1 h2 h3 => exact .unicode h1 h2 h3
  | pair h1 h2 h3 h4 h5 => simpa using LenientChar.pair (loose := loose) h1 h2 h3 h4 .nil h5

theorem strChars_lenient {loose : Bool} {t s : Text} (h : StrChars t s) : LenientChars loose t s := by
  induction h with
  | nil => exact .nil
  | cons h _ ih => exact .cons (strChar_lenient h) ih

theorem str_lenient {loose : Bool} {t s : Text} (h : Str t s) : LenientStr loose t s := by
  obtain ⟨b, h1, h2⟩ := h
  exact ⟨b, strChars_lenient h1, h2⟩

/-- Every string literal of the lenient language is read. -/
theorem parseStdstring_complete' {accel : Option Traits} {loose : Bool} (ha : AccelOk accel)
    (hg : loose = true → Greedy accel) {t s : Text} (h : LenientStr loose t s) (rest : Bytes) :
    parseStdstring accel (t ++ rest) = .ok s rest :=
   parseStdstring_complete_at ha (lenientStr_at ha hg h rest)

/-- Every string literal of the strict lenient language is read, by every build. -/
theorem parseStdstring_complete {accel : Option Traits} (ha : AccelOk accel) {t s : Text} (h : LenientStr false t s) (rest : Bytes) :
    parseStdstring accel (t ++ rest) = .ok s rest :=
  parseStdstring_complete' ha (by simp) h rest

/-! ### Soundness -/

theorem lenientChars_plain_append {loose : Bool} {p t s : Text} (hp : ∀ c ∈ p, Unescaped c) (h : LenientChars loose t s) :
    LenientChars loose (p ++ t) (p ++ s) := by
  induction p with
  | nil => exact h
  | cons c p ih =>
    have := ih fun x hx => hp x (by simp [hx])
    exact LenientChars.cons (t := [c]) (s := [c]) (.plain (hp c (by simp))) this

theorem charsAt_plain_append {pass : Text → Text → Prop} {r p t s : Text} (hp : ∀ c ∈ p, Unescaped c) (h : CharsAt pass r t s) :
    CharsAt pass r (p ++ t) (p ++ s) := by
  induction p with
  | nil => exact h
  | cons c p ih =>
    have := ih fun x hx => hp x (by simp [hx])
    exact CharsAt.cons (t := [c]) (s := [c]) (.plain (hp c (by simp))) this

theorem mid_plain_append {p t s : Text} (hp : ∀ c ∈ p, Unescaped c) (h : Mid true t s) : Mid true (p ++ t) (p ++ s) := by
  induction p with
  | nil => exact h
  | cons c p ih => exact .plain rfl (hp c (by simp)) (ih fun x hx => hp x (by simp [hx]))

theorem skipUnicodeEscape_sound {ph : UInt16} {s rest : Bytes} {r : UInt16 × Bytes} (h : skipUnicodeEscape ph s = .ok r rest) :
    ∃ t cp, s = t ++ rest ∧ Hex4 t cp.toNat ∧ unicodeUnit ph cp = some r := by
  unfold skipUnicodeEscape at h
  obtain ⟨cp, s', h1, h2⟩ := Res.bind_eq_ok.1 h
  obtain ⟨t, rfl, ht⟩ := hexLoop_sound h1
  cases hu : unicodeUnit ph cp with
  | none => simp [hu] at h2
  | some r' => simp [hu] at h2; obtain ⟨rfl, rfl⟩ := h2; exact ⟨t, cp, rfl, ht, hu⟩

/-- What is still to come when a high half is pending. -/
def MidTail (pass : Text → Text → Prop) (ph : UInt16) (cur out rest : Bytes) : Prop :=
  ∃ m ms h₂ u₂ cp body s, cur = m ++ 0x5c :: 0x75 :: (h₂ ++ (body ++ 0x22 :: rest)) ∧ MidAt pass (0x5c :: 0x75 :: (h₂ ++ (body ++ 0x22 :: rest))) m ms ∧ Hex4 h₂ u₂ ∧ LowSurrogate u₂ ∧
    CharsAt pass (0x22 :: rest) body s ∧ cp = pairCp ph.toNat u₂ ∧ out = ms ++ utf8 cp ++ s

theorem stringLoop_sound {accel : Option Traits} (ha : AccelOk accel) : ∀ (n : Nat) (res pend : Bytes) (ph : UInt16) (cur : Bytes)
    (v rest : Bytes), stringLoop accel n res (pend ++ cur) ph cur = .ok v rest → (ph = 0 ∨ HighSurrogate ph.toNat) →
    ∃ out, v = res ++ pend ++ out ∧
      ((ph = 0 ∧ ∃ body, cur = body ++ 0x22 :: rest ∧ CharsAt (Skips accel) (0x22 :: rest) body out) ∨
       (HighSurrogate ph.toNat ∧ MidTail (Skips accel) ph cur out rest)) := by
  intro n
  induction n with
  | zero => intro res pend ph cur v rest h; simp [stringLoop] at h
  | succ n ih =>
    intro res pend ph cur v rest h hph
    cases cur with
    | nil => simp [stringLoop] at h
    | cons c₀ s₀ =>
      obtain ⟨p, r, h1, h2, h3, h4⟩ := accelStep_spec ha (c₀ :: s₀) (by simp)
      rw [stringLoop, h3] at h
      rw [h1] at h ⊢
      -- it suffices to describe what follows the skipped bytes
      suffices H : ∃ out, v = res ++ (pend ++ p) ++ out ∧
          ((ph = 0 ∧ ∃ body, r = body ++ 0x22 :: rest ∧ CharsAt (Skips accel) (0x22 :: rest) body out) ∨
           (HighSurrogate ph.toNat ∧ MidTail (Skips accel) ph (p ++ r) (p ++ out) rest)) by
        obtain ⟨out, rfl, H⟩ := H
        refine ⟨p ++ out, by simp, ?_⟩
        rcases H with ⟨e1, body, e2, e3⟩ | ⟨e1, e2⟩
        · exact .inl ⟨e1, p ++ body, by simp [e2], charsAt_plain_append h2 e3⟩
        · exact .inr ⟨e1, e2⟩
      rw [h1] at h3
      clear h4
      cases r with
      | nil => simp at h
      | cons c s =>
        have hbt : between (pend ++ (p ++ c :: s)) (c :: s) = pend ++ p := by
          rw [← List.append_assoc]; exact between_append _ _
        simp only [Res.bind_ok, ne_eq, reduceCtorEq, not_false_eq_true, decide_true, Bool.true_eq_false, if_false] at h
        split at h
        · simp at h
        · rename_i hctl
          split at h
          · rename_i hc
            subst hc
            cases s with
            | nil => simp at h
            | cons d s' =>
              simp only at h
              split at h
              · simp at h
              · rename_i hd
                split at h
                · rename_i hdu
                  subst hdu
                  obtain ⟨r, s'', e1, e2⟩ := Res.bind_eq_ok.1 h
                  obtain ⟨t, cp, rfl, ht, hu⟩ := skipUnicodeEscape_sound e1
                  rw [hbt] at e2
                  rcases hph with rfl | hph
                  · by_cases hh : HighSurrogate cp.toNat
                    · rw [unicodeUnit_high _ _ hh] at hu
                      simp at hu
                      subst hu
                      obtain ⟨out, rfl, e3⟩ := ih _ [] cp s'' v rest (by simpa using e2) (.inr hh)
                      have hcp : cp ≠ 0 := by rintro rfl; simp [HighSurrogate] at hh
                      rcases e3 with ⟨e3, _⟩ | ⟨_, m, ms, h₂, u₂, k, body, s, rfl, f2, f3, f4, f5, fk, rfl⟩
                      · exact absurd e3 hcp
                      · refine ⟨_, ?_, .inl ⟨rfl, _, ?_, .cons (.pair ht f3 hh f4 f2 fk) f5⟩⟩ <;> simp
                    · by_cases hl : LowSurrogate cp.toNat
                      · rw [unicodeUnit_low_zero _ hl] at hu; simp at hu
                      · rw [unicodeUnit_plain _ _ hh hl] at hu
                        simp at hu
                        subst hu
                        obtain ⟨out, rfl, e3⟩ := ih _ [] 0 s'' v rest (by simpa using e2) (.inl rfl)
                        rcases e3 with ⟨_, body, rfl, f1⟩ | ⟨e3, _⟩
                        · refine ⟨_, ?_, .inl ⟨rfl, _, ?_, .cons (.unicode ht hh hl) f1⟩⟩ <;> simp
                        · simp [HighSurrogate] at e3
                  · have hph0 : ph ≠ 0 := by rintro rfl; simp [HighSurrogate] at hph
                    by_cases hh : HighSurrogate cp.toNat
                    · rw [unicodeUnit_high _ _ hh] at hu
                      simp [hph0] at hu
                    · by_cases hl : LowSurrogate cp.toNat
                      · obtain ⟨k, hk⟩ : ∃ k, k = pairCp ph.toNat cp.toNat := ⟨_, rfl⟩
                        rw [unicodeUnit_low _ _ hl hph hk] at hu
                        simp only [Option.some.injEq] at hu
                        subst hu
                        obtain ⟨out, rfl, e3⟩ := ih _ [] 0 s'' v rest (by simpa using e2) (.inl rfl)
                        rcases e3 with ⟨_, body, rfl, f1⟩ | ⟨e3, _⟩
                        · refine ⟨utf8 k ++ out, ?_, .inr ⟨hph, p, p, t, _, k, body, out, ?_, .last ⟨h2, by simpa using h3⟩, ht, hl, f1, hk, ?_⟩⟩ <;> simp
                        · simp [HighSurrogate] at e3
                      · rw [unicodeUnit_plain _ _ hh hl] at hu
                        simp only [Option.some.injEq] at hu
                        subst hu
                        obtain ⟨out, rfl, e3⟩ := ih _ [] ph s'' v rest (by simpa using e2) (.inr hph)
                        rcases e3 with ⟨e3, _⟩ | ⟨_, m, ms, h₂, u₂, k, body, s, rfl, f2, f3, f4, f5, fk, rfl⟩
                        · exact absurd e3 hph0
                        · refine ⟨utf8 cp.toNat ++ (ms ++ utf8 k ++ s), ?_, .inr ⟨hph, _, _, h₂, u₂, k, body, s, ?_, .unicode ⟨h2, by simpa using h3⟩ ht hh hl f2, f3, f4, f5, fk, ?_⟩⟩ <;> simp
                · rename_i hdu
                  have hph0 : ph = 0 := by
                    rcases Classical.em (ph = 0) with h0 | h0
                    · exact h0
                    · exact absurd ⟨h0, hdu⟩ hd
                  subst hph0
                  cases he : simpleEscape d with
                  | none => simp [he] at h
                  | some e =>
                    simp only [he, hbt] at h
                    obtain ⟨out, rfl, e3⟩ := ih _ [] 0 s' v rest (by simpa using h) (.inl rfl)
                    rcases e3 with ⟨_, body, rfl, f1⟩ | ⟨e3, _⟩
                    · refine ⟨_, ?_, .inl ⟨rfl, _, ?_, .cons (.simple (simpleEscape_sound he)) f1⟩⟩ <;> simp
                    · simp [HighSurrogate] at e3
          · rename_i hnb
            split at h
            · rename_i hc
              subst hc
              split at h
              · simp at h
              · rename_i hp0
                simp only [hbt, Res.ok.injEq] at h
                obtain ⟨rfl, rfl⟩ := h
                exact ⟨[], by simp, .inl ⟨by simpa using hp0, [], by simp, .nil⟩⟩
            · rename_i hnq
              split at h
              · simp at h
              · rename_i hp0
                split at h
                · simp at h
                · rename_i hlt
                  have hp0 : ph = 0 := by simpa using hp0
                  subst hp0
                  have hu : Unescaped c := ⟨by simpa using hlt, hnq, hnb⟩
                  obtain ⟨out, rfl, e3⟩ := ih res (pend ++ p ++ [c]) 0 s v rest (by simpa using h) (.inl rfl)
                  rcases e3 with ⟨_, body, rfl, f1⟩ | ⟨e3, _⟩
                  · refine ⟨c :: out, by simp, .inl ⟨rfl, [c] ++ body, by simp, ?_⟩⟩
                    exact .cons (.plain hu) f1
                  · simp [HighSurrogate] at e3

theorem parseStdstring_sound_at {accel : Option Traits} (ha : AccelOk accel) {s v rest : Bytes}
    (h : parseStdstring accel s = .ok v rest) : ∃ t, s = t ++ rest ∧ StrAt (Skips accel) rest t v := by
  cases s with
  | nil => simp [parseStdstring] at h
  | cons c s =>
    simp only [parseStdstring] at h
    split at h
    · rename_i hc
      subst hc
      obtain ⟨out, rfl, e⟩ := stringLoop_sound ha _ [] [] 0 s v rest (by simpa using h) (.inl rfl)
      rcases e with ⟨_, body, rfl, f⟩ | ⟨e, _⟩
      · exact ⟨0x22 :: (body ++ [0x22]), by simp, body, by simpa using f, rfl⟩
      · simp [HighSurrogate] at e
    · simp at h

/-- What a build reads belongs to the lenient language. -/
theorem strAt_lenient {pass : Text → Text → Prop} {l : Bool} (hp : ∀ p r, pass p r → (∀ c ∈ p, Unescaped c) ∧ (l = false → p = [])) {r t s : Text}
    (h : StrAt pass r t s) : LenientStr l t s := by
  have key : ∀ {p : Text}, (∀ c ∈ p, Unescaped c) ∧ (l = false → p = []) → ∀ {t s : Text}, Mid l t s → Mid l (p ++ t) (p ++ s) := by
    intro p hp t s h
    cases l with
    | false => rw [hp.2 rfl]; exact h
    | true => exact mid_plain_append hp.1 h
  obtain ⟨b, hb, rfl⟩ := h
  refine ⟨b, ?_, rfl⟩
  revert hb
  generalize 0x22 :: r = r
  intro hb
  induction hb with
  | nil => exact .nil
  | cons h _ ih =>
    refine .cons ?_ ih
    cases h with
    | plain h => exact .plain h
    | simple h => exact .simple h
    | unicode h1 h2 h3 => exact .unicode h1 h2 h3
    | pair h1 h2 h3 h4 h5 h6 =>
      refine .pair h1 h2 h3 h4 ?_ h6
      clear h1 h2 h3 h4 h6
      induction h5 with
      | last h => simpa using key (hp _ _ h) .nil
      | unicode h hx h1 h2 _ ih => exact key (hp _ _ h) (.unicode hx h1 h2 ih)

theorem parseStdstring_sound {accel : Option Traits} (ha : AccelOk accel) {s v rest : Bytes}
    (h : parseStdstring accel s = .ok v rest) : ∃ t, s = t ++ rest ∧ LenientStr accel.isSome t v := by
  obtain ⟨t, h1, h2⟩ := parseStdstring_sound_at ha h
  refine ⟨t, h1, strAt_lenient ?_ h2⟩
  rintro p r ⟨h3, h4⟩
  refine ⟨h3, fun hl => ?_⟩
  cases accel with
  | some T => simp at hl
  | none =>
    simp only [accelStep, Res.ok.injEq, true_and] at h4
    have := congrArg List.length h4
    simp at this
    exact this

/-! ### No undefined behaviour, no timeout -/

theorem hexLoop_safe (n : Nat) (cp : UInt16) (s : Bytes) :
    hexLoop n cp s = .fail ∨ ∃ cp' rest, hexLoop n cp s = .ok cp' rest ∧ rest.length ≤ s.length := by
  induction n generalizing cp s with
  | zero => exact .inr ⟨cp, s, rfl, by omega⟩
  | succ n ih =>
    cases s with
    | nil => exact .inl rfl
    | cons c s =>
      unfold hexLoop
      cases hexStep cp c with
      | none => exact .inl rfl
      | some cp' =>
        rcases ih cp' s with h | ⟨a, b, h, h'⟩
        · exact .inl h
        · exact .inr ⟨a, b, h, by simp; omega⟩

theorem stringLoop_safe {accel : Option Traits} (ha : AccelOk accel) : ∀ (n : Nat) (res beg : Bytes) (ph : UInt16) (cur : Bytes),
    cur.length < n →
    stringLoop accel n res beg ph cur = .fail ∨ ∃ v rest, stringLoop accel n res beg ph cur = .ok v rest := by
  intro n
  induction n with
  | zero => intro res beg ph cur h; omega
  | succ n ih =>
    intro res beg ph cur hn
    cases cur with
    | nil => exact .inl rfl
    | cons c₀ s₀ =>
      obtain ⟨p, r, h1, h2, h3, h4⟩ := accelStep_spec ha (c₀ :: s₀) (by simp)
      have hlen := congrArg List.length h1
      rw [stringLoop, h3]
      cases r with
      | nil => simp
      | cons c s =>
        simp only [List.length_cons, List.length_append] at hlen hn
        simp only [Res.bind_ok, ne_eq, reduceCtorEq, not_false_eq_true, decide_true, Bool.true_eq_false, if_false]
        split
        · simp
        · split
          · cases s with
            | nil => simp
            | cons d s' =>
              simp only [List.length_cons] at hlen
              simp only
              split
              · simp
              · split
                · unfold skipUnicodeEscape
                  rcases hexLoop_safe 4 0 s' with h | ⟨cp, s'', h, hl⟩
                  · simp [h]
                  · simp only [h, Res.bind_ok]
                    cases unicodeUnit ph cp with
                    | none => simp
                    | some r => exact ih _ _ _ _ (by omega)
                · cases simpleEscape d with
                  | none => simp
                  | some e => exact ih _ _ _ _ (by omega)
          · split
            · split <;> simp
            · split
              · simp
              · split
                · simp
                · exact ih _ _ _ _ (by omega)

theorem parseStdstring_safe {accel : Option Traits} (ha : AccelOk accel) {s : Bytes} (hs : s ≠ []) :
    parseStdstring accel s = .fail ∨ ∃ v rest, parseStdstring accel s = .ok v rest := by
  cases s with
  | nil => simp at hs
  | cons c s =>
    simp only [parseStdstring]
    split
    · exact stringLoop_safe ha _ _ _ _ _ (by omega)
    · simp

end Meojson
