import Verif.Proofs.Str

/-! Lemmas about `parse_number`. -/

namespace Meojson
open Spec

theorem isDigit_iff (c : UInt8) : isDigit c = true ↔ Digit c := by
  simp [isDigit, Digit]

theorem digitLoop_append {ds : Bytes} (h : ∀ c ∈ ds, Digit c) (rest : Bytes) :
    digitLoop (ds ++ rest) = digitLoop rest := by
  induction ds with
  | nil => rfl
  | cons c ds ih =>
    simp only [List.cons_append, digitLoop]
    rw [if_pos ((isDigit_iff c).2 (h c (by simp)))]
    exact ih fun x hx => h x (by simp [hx])

theorem digitLoop_sound (s : Bytes) : ∃ ds, (∀ c ∈ ds, Digit c) ∧ s = ds ++ digitLoop s ∧
    ∀ c r, digitLoop s = c :: r → ¬ Digit c := by
  induction s with
  | nil => exact ⟨[], by simp, by simp [digitLoop], by simp [digitLoop]⟩
  | cons c s ih =>
    by_cases h : isDigit c = true
    · obtain ⟨ds, h1, h2, h3⟩ := ih
      refine ⟨c :: ds, ?_, ?_, ?_⟩
      · intro x hx
        rcases List.mem_cons.1 hx with rfl | hx
        · exact (isDigit_iff x).1 h
        · exact h1 x hx
      · simp only [digitLoop, h, if_true, List.cons_append]
        rw [← h2]
      · simpa only [digitLoop, h, if_true] using h3
    · refine ⟨[], by simp, by simp [digitLoop, h], ?_⟩
      intro d r hd
      simp only [digitLoop, h, if_false, List.cons.injEq, Bool.false_eq_true] at hd
      rw [← isDigit_iff, ← hd.1]; simpa using h

theorem skipDigit_complete {ds : Bytes} (h : Digits ds) {c : UInt8} (s : Bytes) (hc : ¬ Digit c) :
    skipDigit (ds ++ c :: s) = .ok () (c :: s) := by
  obtain ⟨h1, h2⟩ := h
  cases ds with
  | nil => exact absurd rfl h1
  | cons d ds =>
    simp only [List.cons_append, skipDigit]
    rw [if_pos ((isDigit_iff d).2 (h2 d (by simp))), digitLoop_append (fun x hx => h2 x (by simp [hx]))]
    have : digitLoop (c :: s) = c :: s := by
      simp only [digitLoop]
      rw [if_neg]; rwa [isDigit_iff]
    rw [this]

theorem skipDigit_sound {s rest : Bytes} {u : Unit} (h : skipDigit s = .ok u rest) :
    ∃ ds c r, Digits ds ∧ rest = c :: r ∧ ¬ Digit c ∧ s = ds ++ rest := by
  cases s with
  | nil => simp [skipDigit] at h
  | cons d s =>
    simp only [skipDigit] at h
    split at h
    · rename_i hd
      obtain ⟨ds, h1, h2, h3⟩ := digitLoop_sound s
      split at h
      · simp at h
      · rename_i c r hcr
        simp only [Res.ok.injEq, true_and] at h
        refine ⟨d :: ds, c, r, ⟨by simp, ?_⟩, h.symm, h3 c r hcr, ?_⟩
        · intro x hx
          rcases List.mem_cons.1 hx with rfl | hx
          · exact (isDigit_iff x).1 hd
          · exact h1 x hx
        · rw [List.cons_append, ← h, ← hcr, ← h2]
    · simp at h

theorem skipDigit_safe (s : Bytes) : skipDigit s = .fail ∨ ∃ c r, skipDigit s = .ok () (c :: r) := by
  cases s with
  | nil => exact .inl rfl
  | cons d s =>
    simp only [skipDigit]
    split
    · split
      · exact .inl rfl
      · exact .inr ⟨_, _, rfl⟩
    · exact .inl rfl

/-- A byte that cannot extend a number. -/
def NumStop (c : UInt8) : Prop := ¬ Digit c ∧ c ≠ 0x2e ∧ c ≠ 0x65 ∧ c ≠ 0x45

theorem numberExp_complete {e : Bytes} (he : ExpPart e) {c : UInt8} (s : Bytes) (hc : NumStop c) :
    numberExp (e ++ c :: s) = .ok () (c :: s) := by
  obtain ⟨h1, h2, h3, h4⟩ := hc
  rcases he with rfl | ⟨x, sign, ds, hx, hsign, hds, rfl⟩
  · simp [numberExp, h3, h4]
  · simp only [List.cons_append, numberExp]
    rw [if_pos hx]
    have hd := skipDigit_complete hds s h1
    rcases hsign with rfl | rfl | rfl
    · simp only [List.nil_append]
      cases ds with
      | nil => exact absurd rfl hds.1
      | cons d ds =>
        have hdig := hds.2 d (by simp)
        have : ¬ (d = 0x2b ∨ d = 0x2d) := by
          rintro (rfl | rfl) <;> exact absurd hdig (by unfold Digit; decide)
        simp only [List.cons_append, if_neg this] at hd ⊢
        exact hd
    · simpa using hd
    · simpa using hd

theorem numberFrac_complete {f e : Bytes} (hf : FracPart f) (he : ExpPart e) {c : UInt8} (s : Bytes) (hc : NumStop c) :
    numberFrac (f ++ (e ++ c :: s)) = .ok () (e ++ c :: s) := by
  have hnext : ∃ d r, e ++ c :: s = d :: r ∧ ¬ Digit d ∧ d ≠ 0x2e := by
    rcases he with rfl | ⟨x, sign, ds, hx, hsign, hds, rfl⟩
    · exact ⟨c, s, rfl, hc.1, hc.2.1⟩
    · exact ⟨x, _, rfl, by rcases hx with rfl | rfl <;> (unfold Digit; decide), by rcases hx with rfl | rfl <;> decide⟩
  obtain ⟨d, r, hdr, hd1, hd2⟩ := hnext
  rw [hdr]
  rcases hf with rfl | ⟨ds, hds, rfl⟩
  · simp [numberFrac, hd2]
  · simp only [List.cons_append, numberFrac, if_true]
    exact skipDigit_complete hds r hd1

theorem parseNumber_complete {t : Bytes} (ht : Number t) {c : UInt8} (s : Bytes) (hc : NumStop c) :
    parseNumber (t ++ c :: s) = .ok (.str .number t) (c :: s) := by
  obtain ⟨sign, i, f, e, hsign, hi, hf, he, rfl⟩ := ht
  have hnext : ∃ d r, f ++ (e ++ c :: s) = d :: r ∧ ¬ Digit d := by
    rcases hf with rfl | ⟨ds, _, rfl⟩
    · rcases he with rfl | ⟨x, sign, ds, hx, hsign, hds, rfl⟩
      · exact ⟨c, s, rfl, hc.1⟩
      · exact ⟨x, _, rfl, by rcases hx with rfl | rfl <;> (unfold Digit; decide)⟩
    · exact ⟨0x2e, _, rfl, by unfold Digit; decide⟩
  obtain ⟨d, r, hdr, hd⟩ := hnext
  have hidig : Digits i := by
    rcases hi with rfl | ⟨h, _⟩
    · refine ⟨by simp, ?_⟩; intro x hx; simp at hx; subst hx; unfold Digit; decide
    · exact h
  have hskip : skipDigit (i ++ d :: r) = .ok () (d :: r) := skipDigit_complete hidig r hd
  have hlz : leadingZero (i ++ d :: r) = false := by
    rcases hi with rfl | ⟨_, h⟩
    · simp only [List.cons_append, List.nil_append, leadingZero]
      have : isDigit d = false := by rw [← Bool.not_eq_true, isDigit_iff]; exact hd
      simp [this]
    · cases i with
      | nil => exact absurd rfl hidig.1
      | cons x xs =>
        have hx : x ≠ 0x30 := by simpa using h
        cases xs <;> simp [leadingZero, hx]
  have main : ∀ (c0 : UInt8) (s0 : Bytes), c0 :: s0 = sign ++ (i ++ d :: r) →
      (if c0 = 0x2d then s0 else c0 :: s0) = i ++ d :: r := by
    intro c0 s0 h
    rcases hsign with rfl | rfl
    · cases i with
      | nil => exact absurd rfl hidig.1
      | cons x xs =>
        have hx := hidig.2 x (by simp)
        simp only [List.nil_append, List.cons_append, List.cons.injEq] at h
        obtain ⟨rfl, rfl⟩ := h
        have : c0 ≠ 0x2d := by rintro rfl; exact absurd hx (by unfold Digit; decide)
        simp [this]
    · simp only [List.cons_append, List.nil_append, List.cons.injEq] at h
      obtain ⟨rfl, rfl⟩ := h
      simp
  have hs : sign ++ i ++ f ++ e ++ c :: s = sign ++ (i ++ d :: r) := by rw [← hdr]; simp
  obtain ⟨c0, s0, h0⟩ : ∃ c0 s0, sign ++ (i ++ d :: r) = c0 :: s0 := by
    rcases hsign with rfl | rfl
    · cases i with
      | nil => exact absurd rfl hidig.1
      | cons x xs => exact ⟨_, _, rfl⟩
    · exact ⟨_, _, rfl⟩
  rw [hs, h0]
  simp only [parseNumber]
  rw [main c0 s0 h0.symm, hlz, hskip]
  simp only [Bool.false_eq_true, if_false, Res.bind_ok]
  rw [← hdr, numberFrac_complete hf he s hc]
  simp only [Res.bind_ok]
  rw [numberExp_complete he s hc]
  simp only [Res.bind_ok]
  rw [← h0, ← hs, between_append]

theorem numberExp_sound {s rest : Bytes} {u : Unit} (h : numberExp s = .ok u rest) :
    ∃ e, ExpPart e ∧ s = e ++ rest := by
  cases s with
  | nil => simp [numberExp] at h
  | cons c s =>
    simp only [numberExp] at h
    split at h
    · rename_i hc
      split at h
      · simp at h
      · rename_i d s'
        split at h
        · rename_i hd
          obtain ⟨ds, c', r, h1, -, -, rfl⟩ := skipDigit_sound h
          exact ⟨c :: ([d] ++ ds), .inr ⟨c, [d], ds, hc, by rcases hd with rfl | rfl <;> simp, h1, rfl⟩, by simp⟩
        · obtain ⟨ds, c', r, h1, -, -, h4⟩ := skipDigit_sound h
          exact ⟨c :: ([] ++ ds), .inr ⟨c, [], ds, hc, by simp, h1, rfl⟩, by simp [h4]⟩
    · simp only [Res.ok.injEq, true_and] at h
      exact ⟨[], .inl rfl, by simp [h]⟩

theorem numberFrac_sound {s rest : Bytes} {u : Unit} (h : numberFrac s = .ok u rest) :
    ∃ f, FracPart f ∧ s = f ++ rest := by
  cases s with
  | nil => simp [numberFrac] at h
  | cons c s =>
    simp only [numberFrac] at h
    split at h
    · rename_i hc
      obtain ⟨ds, c', r, h1, -, -, rfl⟩ := skipDigit_sound h
      exact ⟨c :: ds, .inr ⟨ds, h1, by rw [hc]⟩, by simp⟩
    · simp only [Res.ok.injEq, true_and] at h
      exact ⟨[], .inl rfl, by simp [h]⟩

theorem parseNumber_sound {s rest : Bytes} {v : Value} (h : parseNumber s = .ok v rest) :
    ∃ t, s = t ++ rest ∧ Number t ∧ v = .str .number t := by
  cases s with
  | nil => simp [parseNumber] at h
  | cons c s =>
    simp only [parseNumber] at h
    generalize hs1 : (if c = 0x2d then s else c :: s) = s1 at h
    split at h
    · simp at h
    · rename_i hlz
      obtain ⟨_, s2, hs2, h⟩ := Res.bind_eq_ok.1 h
      obtain ⟨_, s3, hs3, h⟩ := Res.bind_eq_ok.1 h
      obtain ⟨_, s4, hs4, h⟩ := Res.bind_eq_ok.1 h
      simp only [Res.ok.injEq] at h
      obtain ⟨rfl, rfl⟩ := h
      obtain ⟨ds, x, r, hds, hx, hnx, heq⟩ := skipDigit_sound hs2
      obtain ⟨f, hf, rfl⟩ := numberFrac_sound hs3
      obtain ⟨e, he, rfl⟩ := numberExp_sound hs4
      have hint : IntPart ds := by
        by_cases h0 : ds.head? = some 0x30
        · left
          cases ds with
          | nil => simp at h0
          | cons y ys =>
            simp at h0; subst h0
            cases ys with
            | nil => rfl
            | cons z zs =>
              exfalso; apply hlz
              rw [heq]
              have := (isDigit_iff z).2 (hds.2 z (by simp))
              simp [leadingZero, this]
        · exact .inr ⟨hds, h0⟩
      have hkey : ∃ sign, (sign = [] ∨ sign = [0x2d]) ∧ c :: s = sign ++ ds ++ f ++ e ++ s4 := by
        rw [← hs1] at heq
        split at heq
        · rename_i hc
          exact ⟨[0x2d], .inr rfl, by simp [hc, heq]⟩
        · exact ⟨[], .inl rfl, by simp [heq]⟩
      obtain ⟨sign, hsign, hcs⟩ := hkey
      refine ⟨sign ++ ds ++ f ++ e, hcs, ⟨sign, ds, f, e, hsign, hint, hf, he, rfl⟩, ?_⟩
      rw [hcs, between_append]

theorem parseNumber_safe (c : UInt8) (s : Bytes) :
    parseNumber (c :: s) = .fail ∨ ∃ v r, parseNumber (c :: s) = .ok v r := by
  simp only [parseNumber]
  generalize (if c = 0x2d then s else c :: s) = s1
  split
  · exact .inl rfl
  · rcases skipDigit_safe s1 with h | ⟨c2, r2, h⟩
    · rw [h]; exact .inl rfl
    · rw [h]; simp only [Res.bind_ok]
      have h3 : numberFrac (c2 :: r2) = .fail ∨ ∃ c r, numberFrac (c2 :: r2) = .ok () (c :: r) := by
        simp only [numberFrac]
        split
        · exact skipDigit_safe _
        · exact .inr ⟨_, _, rfl⟩
      rcases h3 with h3 | ⟨c3, r3, h3⟩
      · rw [h3]; exact .inl rfl
      · rw [h3]; simp only [Res.bind_ok]
        have h4 : numberExp (c3 :: r3) = .fail ∨ ∃ c r, numberExp (c3 :: r3) = .ok () (c :: r) := by
          simp only [numberExp]
          split
          · split
            · exact .inl rfl
            · split
              · exact skipDigit_safe _
              · exact skipDigit_safe _
          · exact .inr ⟨_, _, rfl⟩
        rcases h4 with h4 | ⟨c4, r4, h4⟩
        · rw [h4]; exact .inl rfl
        · rw [h4]; exact .inr ⟨_, _, rfl⟩

end Meojson
