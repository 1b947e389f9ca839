import Verif.Proofs.Dialects

/-! The grammars are unambiguous: a text is read in one way only. -/

namespace Meojson
open Spec

/-- What unambiguity needs of a dialect. -/
structure Lexical (c : Bool) (D : Dialect) : Prop where
  ws : ∀ w, D.ws w → wsOf c w
  str : ∀ t s, D.str t s → LenientStr true t s

theorem lenientStr_true {l : Bool} {t s : Text} (h : LenientStr l t s) : LenientStr true t s := by
  cases l
  · exact lenientStr_mono h
  · exact h

theorem ws_det {j : Bool} {w w' : Text} {c c' : UInt8} {x x' : Text} (hw : wsOf j w) (hw' : wsOf j w') (hc : Sig c) (hc' : Sig c')
    (h : w ++ c :: x = w' ++ c' :: x') : w = w' ∧ c = c' ∧ x = x' := by
  have h1 := skipWhitespace_complete j x hw hc
  have h2 := skipWhitespace_complete j x' hw' hc'
  rw [h, h2] at h1
  simp at h1
  obtain ⟨rfl, rfl⟩ := h1
  exact ⟨List.append_cancel_right h, rfl, rfl⟩

theorem str_det {t t' s s' r r' : Text} (h : LenientStr true t s) (h' : LenientStr true t' s') (e : t ++ r = t' ++ r') :
    t = t' ∧ s = s' ∧ r = r' := by
  have h1 := parseStdstring_complete' greedy_sound (fun _ => greedy_greedy) h r
  have h2 := parseStdstring_complete' greedy_sound (fun _ => greedy_greedy) h' r'
  rw [e, h2] at h1
  simp at h1
  obtain ⟨rfl, rfl⟩ := h1
  exact ⟨List.append_cancel_right e, rfl, rfl⟩

theorem num_det {t t' : Text} {c c' : UInt8} {r r' : Text} (h : Number t) (h' : Number t') (hc : NumStop c) (hc' : NumStop c')
    (e : t ++ c :: r = t' ++ c' :: r') : t = t' := by
  have h1 := parseNumber_complete h r hc
  have h2 := parseNumber_complete h' r' hc'
  rw [e, h2] at h1
  simp at h1
  exact h1.1.symm

/-- The first byte tells the kind of a value. -/
def HeadOf : Doc → UInt8 → Prop
  | .null, c => c = 0x6e
  | .bool true, c => c = 0x74
  | .bool false, c => c = 0x66
  | .num _, c => c = 0x2d ∨ Digit c
  | .str _, c => c = 0x22
  | .arr _, c => c = 0x5b
  | .obj _, c => c = 0x7b

theorem val_headOf {k : Bool} {D : Dialect} (hD : Lexical k D) {t : Text} {j : Doc} (h : Val D t j) :
    ∃ c t', t = c :: t' ∧ HeadOf j c := by
  cases h with
  | num h => exact number_head h
  | str h => obtain ⟨t', rfl⟩ := lenientStr_head (hD.str _ _ h); exact ⟨_, _, rfl, rfl⟩
  | _ => exact ⟨_, _, rfl, rfl⟩

theorem headOf_det {j j' : Doc} {c : UInt8} (h : HeadOf j c) (h' : HeadOf j' c) :
    match j with
    | .null => j' = .null
    | .bool b => j' = .bool b
    | .num _ => ∃ x, j' = .num x
    | .str _ => ∃ x, j' = .str x
    | .arr _ => ∃ x, j' = .arr x
    | .obj _ => ∃ x, j' = .obj x := by
  unfold HeadOf Digit at h h'
  split at h <;> split at h' <;> first
    | rfl
    | exact ⟨_, rfl⟩
    | (exfalso; subst h; simp at h'; done)
    | (exfalso; subst h'; simp at h; done)

section
variable {k : Bool} {D : Dialect} (hD : Lexical k D)
include hD

theorem val_sig {t : Text} {j : Doc} (h : Val D t j) : ∃ c t', t = c :: t' ∧ ValHead c :=
  val_head (fun t s h => lenientStr_head (hD.str t s h)) h

theorem elems_head {t : Text} {js : List Doc} (h : Elems D t js) : ∃ w c t', t = w ++ c :: t' ∧ wsOf k w ∧ ValHead c := by
  cases h with
  | last h1 h2 h3 => obtain ⟨c, t', rfl, hc⟩ := val_sig hD h2; exact ⟨_, c, _, by simp only [List.append_assoc, List.cons_append]; rfl, hD.ws _ h1, hc⟩
  | lastComma _ h1 h2 h3 => obtain ⟨c, t', rfl, hc⟩ := val_sig hD h2; exact ⟨_, c, _, by simp only [List.append_assoc, List.cons_append]; rfl, hD.ws _ h1, hc⟩
  | cons h1 h2 h3 => obtain ⟨c, t', rfl, hc⟩ := val_sig hD h2; exact ⟨_, c, _, by simp only [List.append_assoc, List.cons_append]; rfl, hD.ws _ h1, hc⟩

theorem members_head {t : Text} {ms : List (Text × Doc)} (h : Members D t ms) :
    ∃ w t', t = w ++ 0x22 :: t' ∧ wsOf k w := by
  cases h with
  | last h1 h2 => obtain ⟨t', rfl⟩ := lenientStr_head (hD.str _ _ h2); exact ⟨_, _, by simp only [List.append_assoc, List.cons_append]; rfl, hD.ws _ h1⟩
  | lastComma _ h1 h2 => obtain ⟨t', rfl⟩ := lenientStr_head (hD.str _ _ h2); exact ⟨_, _, by simp only [List.append_assoc, List.cons_append]; rfl, hD.ws _ h1⟩
  | cons h1 h2 => obtain ⟨t', rfl⟩ := lenientStr_head (hD.str _ _ h2); exact ⟨_, _, by simp only [List.append_assoc, List.cons_append]; rfl, hD.ws _ h1⟩

/-- A list of elements does not begin like `ws ]`. -/
theorem elems_ne {t w x x' : Text} {js : List Doc} (h : Elems D t js) (hw : D.ws w) : w ++ 0x5d :: x ≠ t ++ x' := by
  obtain ⟨w', c, t', rfl, h1, h2⟩ := elems_head hD h
  intro e
  simp only [List.append_assoc, List.cons_append] at e
  exact h2.2.1 (ws_det (hD.ws _ hw) h1 (sig_of (by simp)) h2.1 e).2.1.symm

theorem members_ne {t w x x' : Text} {ms : List (Text × Doc)} (h : Members D t ms) (hw : D.ws w) : w ++ 0x7d :: x ≠ t ++ x' := by
  obtain ⟨w', t', rfl, h1⟩ := members_head hD h
  intro e
  simp only [List.append_assoc, List.cons_append] at e
  have := (ws_det (hD.ws _ hw) h1 (sig_of (by simp)) (sig_of (by simp)) e).2.1
  revert this; decide

def ValDet (D : Dialect) (t : Text) (j : Doc) : Prop :=
  ∀ t' j' r r', Val D t' j' → t ++ r = t' ++ r' → Follow j r → Follow j' r' → t = t' ∧ j = j'

theorem elem_det {w₁ t w₂ w₁' t' w₂' x x' : Text} {j j' : Doc} {c c' : UInt8} (ih : ValDet D t j)
    (h1 : D.ws w₁) (ht : Val D t j) (h2 : D.ws w₂) (h1' : D.ws w₁') (ht' : Val D t' j') (h2' : D.ws w₂')
    (hc : c = 0x5d ∨ c = 0x7d ∨ c = 0x2c) (hc' : c' = 0x5d ∨ c' = 0x7d ∨ c' = 0x2c)
    (e : w₁ ++ t ++ w₂ ++ c :: x = w₁' ++ t' ++ w₂' ++ c' :: x') :
    w₁ = w₁' ∧ t = t' ∧ w₂ = w₂' ∧ j = j' ∧ c = c' ∧ x = x' := by
  have hc1 : c = 0x5d ∨ c = 0x7d ∨ c = 0x2c ∨ c = 0x3a ∨ c = 0x22 := by grind
  have hc1' : c' = 0x5d ∨ c' = 0x7d ∨ c' = 0x2c ∨ c' = 0x3a ∨ c' = 0x22 := by grind
  obtain ⟨d, y, e1, hd⟩ := val_sig hD ht
  obtain ⟨d', y', e1', hd'⟩ := val_sig hD ht'
  have e2 : w₁ ++ d :: (y ++ (w₂ ++ c :: x)) = w₁' ++ d' :: (y' ++ (w₂' ++ c' :: x')) := by
    simpa [e1, e1'] using e
  obtain ⟨rfl, rfl, -⟩ := ws_det (hD.ws _ h1) (hD.ws _ h1') hd.1 hd'.1 e2
  have e3 : t ++ (w₂ ++ c :: x) = t' ++ (w₂' ++ c' :: x') := by
    simpa using e
  obtain ⟨rfl, rfl⟩ := ih _ _ _ _ ht' e3 (.inr (numStop_ws (hD.ws _ h2) x (numStop_of hc1)))
    (.inr (numStop_ws (hD.ws _ h2') x' (numStop_of hc1')))
  obtain ⟨rfl, rfl, rfl⟩ := ws_det (hD.ws _ h2) (hD.ws _ h2') (sig_of hc1) (sig_of hc1') (List.append_cancel_left e3)
  simp

theorem member_det {w₁ kt k w₂ w₃ t w₄ w₁' kt' k' w₂' w₃' t' w₄' x x' : Text} {j j' : Doc} {c c' : UInt8} (ih : ValDet D t j)
    (h1 : D.ws w₁) (hk : D.str kt k) (h2 : D.ws w₂) (h3 : D.ws w₃) (ht : Val D t j) (h4 : D.ws w₄)
    (h1' : D.ws w₁') (hk' : D.str kt' k') (h2' : D.ws w₂') (h3' : D.ws w₃') (ht' : Val D t' j') (h4' : D.ws w₄')
    (hc : c = 0x5d ∨ c = 0x7d ∨ c = 0x2c) (hc' : c' = 0x5d ∨ c' = 0x7d ∨ c' = 0x2c)
    (e : w₁ ++ kt ++ w₂ ++ 0x3a :: (w₃ ++ t ++ w₄ ++ c :: x) = w₁' ++ kt' ++ w₂' ++ 0x3a :: (w₃' ++ t' ++ w₄' ++ c' :: x')) :
    (w₁ = w₁' ∧ kt = kt' ∧ k = k' ∧ w₂ = w₂') ∧ w₃ = w₃' ∧ t = t' ∧ w₄ = w₄' ∧ j = j' ∧ c = c' ∧ x = x' := by
  obtain ⟨y, e1⟩ := lenientStr_head (hD.str _ _ hk)
  obtain ⟨y', e1'⟩ := lenientStr_head (hD.str _ _ hk')
  have e2 : w₁ ++ 0x22 :: (y ++ (w₂ ++ 0x3a :: (w₃ ++ t ++ w₄ ++ c :: x))) =
      w₁' ++ 0x22 :: (y' ++ (w₂' ++ 0x3a :: (w₃' ++ t' ++ w₄' ++ c' :: x'))) := by
    simpa [e1, e1'] using e
  obtain ⟨rfl, -, -⟩ := ws_det (hD.ws _ h1) (hD.ws _ h1') (sig_of (by simp)) (sig_of (by simp)) e2
  have e3 : kt ++ (w₂ ++ 0x3a :: (w₃ ++ t ++ w₄ ++ c :: x)) = kt' ++ (w₂' ++ 0x3a :: (w₃' ++ t' ++ w₄' ++ c' :: x')) := by
    simpa using e
  obtain ⟨rfl, rfl, e4⟩ := str_det (hD.str _ _ hk) (hD.str _ _ hk') e3
  obtain ⟨rfl, -, e5⟩ := ws_det (hD.ws _ h2) (hD.ws _ h2') (sig_of (by simp)) (sig_of (by simp)) e4
  exact ⟨⟨rfl, rfl, rfl, rfl⟩, elem_det hD ih h3 ht h4 h3' ht' h4' hc hc' e5⟩

theorem val_det {t : Text} {j : Doc} (h : Val D t j) : ValDet D t j := by
  have kind : ∀ {t t' r r' : Text} {j j' : Doc}, Val D t j → Val D t' j' → t ++ r = t' ++ r' → ∃ c, HeadOf j c ∧ HeadOf j' c := by
    intro t t' r r' j j' h h' e
    obtain ⟨c, y, rfl, hc⟩ := val_headOf hD h
    obtain ⟨c', y', rfl, hc'⟩ := val_headOf hD h'
    simp at e
    exact ⟨c, hc, e.1 ▸ hc'⟩
  refine Val.rec (D := D) (motive_1 := fun t j _ => ValDet D t j)
    (motive_2 := fun t js _ => ∀ t' js' r r', Elems D t' js' → t ++ 0x5d :: r = t' ++ 0x5d :: r' → t = t' ∧ js = js')
    (motive_3 := fun t ms _ => ∀ t' ms' r r', Members D t' ms' → t ++ 0x7d :: r = t' ++ 0x7d :: r' → t = t' ∧ ms = ms')
    ?_ ?_ ?_ ?_ ?_ ?_ ?_ ?_ ?_ ?_ ?_ ?_ ?_ ?_ ?_ h
  · intro t' j' r r' h' e _ _
    obtain ⟨c, hc, hc'⟩ := kind .null h' e
    obtain rfl := headOf_det hc hc'
    cases h'; simp
  · intro t' j' r r' h' e _ _
    obtain ⟨c, hc, hc'⟩ := kind .true h' e
    obtain rfl := headOf_det hc hc'
    cases h'; simp
  · intro t' j' r r' h' e _ _
    obtain ⟨c, hc, hc'⟩ := kind .false h' e
    obtain rfl := headOf_det hc hc'
    cases h'; simp
  · intro t hn t' j' r r' h' e hf hf'
    obtain ⟨c, hc, hc'⟩ := kind (.num hn) h' e
    obtain ⟨x, rfl⟩ := headOf_det hc hc'
    rcases hf with hf | ⟨c, r, rfl, hf⟩
    · simp [Doc.isContainer] at hf
    rcases hf' with hf' | ⟨c', r', rfl, hf'⟩
    · simp [Doc.isContainer] at hf'
    cases h' with
    | num hn' => have := num_det hn hn' hf hf' e; subst this; simp
  · intro t s hs t' j' r r' h' e _ _
    obtain ⟨c, hc, hc'⟩ := kind (.str hs) h' e
    obtain ⟨x, rfl⟩ := headOf_det hc hc'
    cases h' with
    | str hs' => obtain ⟨rfl, rfl, -⟩ := str_det (hD.str _ _ hs) (hD.str _ _ hs') e; simp
  · intro w hw t' j' r r' h' e _ _
    obtain ⟨c, hc, hc'⟩ := kind (.arrEmpty hw) h' e
    obtain ⟨x, rfl⟩ := headOf_det hc hc'
    cases h' with
    | arrEmpty hw' =>
      simp at e
      obtain ⟨rfl, -, -⟩ := ws_det (hD.ws _ hw) (hD.ws _ hw') (sig_of (by simp)) (sig_of (by simp)) e; simp
    | arr h' => simp at e; exact absurd e (elems_ne hD h' hw)
  · intro t js h ih t' j' r r' h' e _ _
    obtain ⟨c, hc, hc'⟩ := kind (.arr h) h' e
    obtain ⟨x, rfl⟩ := headOf_det hc hc'
    cases h' with
    | arrEmpty hw' => simp at e; exact absurd e.symm (elems_ne hD h hw')
    | arr h' => simp at e; obtain ⟨rfl, rfl⟩ := ih _ _ _ _ h' e; simp
  · intro w hw t' j' r r' h' e _ _
    obtain ⟨c, hc, hc'⟩ := kind (.objEmpty hw) h' e
    obtain ⟨x, rfl⟩ := headOf_det hc hc'
    cases h' with
    | objEmpty hw' =>
      simp at e
      obtain ⟨rfl, -, -⟩ := ws_det (hD.ws _ hw) (hD.ws _ hw') (sig_of (by simp)) (sig_of (by simp)) e; simp
    | obj h' => simp at e; exact absurd e (members_ne hD h' hw)
  · intro t js h hnd ih t' j' r r' h' e _ _
    obtain ⟨c, hc, hc'⟩ := kind (.obj h hnd) h' e
    obtain ⟨x, rfl⟩ := headOf_det hc hc'
    cases h' with
    | objEmpty hw' => simp at e; exact absurd e.symm (members_ne hD h hw')
    | obj h' => simp at e; obtain ⟨rfl, rfl⟩ := ih _ _ _ _ h' e; simp
  · intro w₁ t j w₂ h1 ht h2 ih t' js' r r' h' e
    cases h' with
    | last h1' ht' h2' =>
      obtain ⟨rfl, rfl, rfl, rfl, -, -⟩ := elem_det hD ih h1 ht h2 h1' ht' h2' (.inl rfl) (.inl rfl) e; simp
    | lastComma _ h1' ht' h2' h3' =>
      rw [List.append_assoc _ (_ :: _), List.cons_append] at e
      have := (elem_det hD ih h1 ht h2 h1' ht' h2' (.inl rfl) (.inr (.inr rfl)) e).2.2.2.2.1
      exact absurd this (by decide)
    | cons h1' ht' h2' h3' =>
      rw [List.append_assoc _ (_ :: _), List.cons_append] at e
      have := (elem_det hD ih h1 ht h2 h1' ht' h2' (.inl rfl) (.inr (.inr rfl)) e).2.2.2.2.1
      exact absurd this (by decide)
  · intro w₁ t j w₂ w₃ hcm h1 ht h2 h3 ih t' js' r r' h' e
    rw [List.append_assoc _ (_ :: _), List.cons_append] at e
    cases h' with
    | last h1' ht' h2' =>
      have := (elem_det hD ih h1 ht h2 h1' ht' h2' (.inr (.inr rfl)) (.inl rfl) e).2.2.2.2.1
      exact absurd this (by decide)
    | lastComma _ h1' ht' h2' h3' =>
      rw [List.append_assoc _ (_ :: _), List.cons_append] at e
      obtain ⟨rfl, rfl, rfl, rfl, -, e'⟩ := elem_det hD ih h1 ht h2 h1' ht' h2' (.inr (.inr rfl)) (.inr (.inr rfl)) e
      obtain ⟨rfl, -, -⟩ := ws_det (hD.ws _ h3) (hD.ws _ h3') (sig_of (by simp)) (sig_of (by simp)) e'
      simp
    | cons h1' ht' h2' h3' =>
      rw [List.append_assoc _ (_ :: _), List.cons_append] at e
      obtain ⟨rfl, rfl, rfl, rfl, -, e'⟩ := elem_det hD ih h1 ht h2 h1' ht' h2' (.inr (.inr rfl)) (.inr (.inr rfl)) e
      exact absurd e' (elems_ne hD h3' h3)
  · intro w₁ t j w₂ ts js h1 ht h2 hts ih ih' t' js' r r' h' e
    rw [List.append_assoc _ (_ :: _), List.cons_append] at e
    cases h' with
    | last h1' ht' h2' =>
      have := (elem_det hD ih h1 ht h2 h1' ht' h2' (.inr (.inr rfl)) (.inl rfl) e).2.2.2.2.1
      exact absurd this (by decide)
    | lastComma _ h1' ht' h2' h3' =>
      rw [List.append_assoc _ (_ :: _), List.cons_append] at e
      obtain ⟨rfl, rfl, rfl, rfl, -, e'⟩ := elem_det hD ih h1 ht h2 h1' ht' h2' (.inr (.inr rfl)) (.inr (.inr rfl)) e
      exact absurd e'.symm (elems_ne hD hts h3')
    | cons h1' ht' h2' h3' =>
      rw [List.append_assoc _ (_ :: _), List.cons_append] at e
      obtain ⟨rfl, rfl, rfl, rfl, -, e'⟩ := elem_det hD ih h1 ht h2 h1' ht' h2' (.inr (.inr rfl)) (.inr (.inr rfl)) e
      obtain ⟨rfl, rfl⟩ := ih' _ _ _ _ h3' e'
      simp
  · intro w₁ kt k w₂ w₃ t j w₄ h1 hk h2 h3 ht h4 ih t' ms' r r' h' e
    rw [List.append_assoc _ (_ :: _), List.cons_append] at e
    cases h' with
    | last h1' hk' h2' h3' ht' h4' =>
      rw [List.append_assoc _ (_ :: _), List.cons_append] at e
      obtain ⟨⟨rfl, rfl, rfl, rfl⟩, rfl, rfl, rfl, rfl, -, -⟩ := member_det hD ih h1 hk h2 h3 ht h4 h1' hk' h2' h3' ht' h4' (.inr (.inl rfl)) (.inr (.inl rfl)) e
      simp
    | lastComma _ h1' hk' h2' h3' ht' h4' h5' =>
      rw [List.append_assoc _ (_ :: _), List.cons_append, List.append_assoc _ (0x2c :: _), List.cons_append] at e
      have := (member_det hD ih h1 hk h2 h3 ht h4 h1' hk' h2' h3' ht' h4' (.inr (.inl rfl)) (.inr (.inr rfl)) e).2.2.2.2.2.1
      exact absurd this (by decide)
    | cons h1' hk' h2' h3' ht' h4' h5' =>
      rw [List.append_assoc _ (_ :: _), List.cons_append, List.append_assoc _ (0x2c :: _), List.cons_append] at e
      have := (member_det hD ih h1 hk h2 h3 ht h4 h1' hk' h2' h3' ht' h4' (.inr (.inl rfl)) (.inr (.inr rfl)) e).2.2.2.2.2.1
      exact absurd this (by decide)
  · intro w₁ kt k w₂ w₃ t j w₄ w₅ hcm h1 hk h2 h3 ht h4 h5 ih t' ms' r r' h' e
    rw [List.append_assoc _ (_ :: _), List.cons_append, List.append_assoc _ (0x2c :: _), List.cons_append] at e
    cases h' with
    | last h1' hk' h2' h3' ht' h4' =>
      rw [List.append_assoc (_ ++ _ ++ _) (0x3a :: _) (_ :: r'), List.cons_append] at e
      have := (member_det hD ih h1 hk h2 h3 ht h4 h1' hk' h2' h3' ht' h4' (.inr (.inr rfl)) (.inr (.inl rfl)) e).2.2.2.2.2.1
      exact absurd this (by decide)
    | lastComma _ h1' hk' h2' h3' ht' h4' h5' =>
      rw [List.append_assoc (_ ++ _ ++ _) (0x3a :: _) (_ :: r'), List.cons_append, List.append_assoc _ (0x2c :: _) (_ :: r'), List.cons_append] at e
      obtain ⟨⟨rfl, rfl, rfl, rfl⟩, rfl, rfl, rfl, rfl, -, e'⟩ := member_det hD ih h1 hk h2 h3 ht h4 h1' hk' h2' h3' ht' h4' (.inr (.inr rfl)) (.inr (.inr rfl)) e
      obtain ⟨rfl, -, -⟩ := ws_det (hD.ws _ h5) (hD.ws _ h5') (sig_of (by simp)) (sig_of (by simp)) e'
      simp
    | cons h1' hk' h2' h3' ht' h4' h5' =>
      rw [List.append_assoc (_ ++ _ ++ _) (0x3a :: _) (_ :: r'), List.cons_append, List.append_assoc _ (0x2c :: _) (_ :: r'), List.cons_append] at e
      obtain ⟨⟨rfl, rfl, rfl, rfl⟩, rfl, rfl, rfl, rfl, -, e'⟩ := member_det hD ih h1 hk h2 h3 ht h4 h1' hk' h2' h3' ht' h4' (.inr (.inr rfl)) (.inr (.inr rfl)) e
      exact absurd e' (members_ne hD h5' h5)
  · intro w₁ kt k w₂ w₃ t j w₄ ts ms h1 hk h2 h3 ht h4 hts ih ih' t' ms' r r' h' e
    rw [List.append_assoc _ (_ :: _), List.cons_append, List.append_assoc _ (0x2c :: _), List.cons_append] at e
    cases h' with
    | last h1' hk' h2' h3' ht' h4' =>
      rw [List.append_assoc (_ ++ _ ++ _) (0x3a :: _) (_ :: r'), List.cons_append] at e
      have := (member_det hD ih h1 hk h2 h3 ht h4 h1' hk' h2' h3' ht' h4' (.inr (.inr rfl)) (.inr (.inl rfl)) e).2.2.2.2.2.1
      exact absurd this (by decide)
    | lastComma _ h1' hk' h2' h3' ht' h4' h5' =>
      rw [List.append_assoc (_ ++ _ ++ _) (0x3a :: _) (_ :: r'), List.cons_append, List.append_assoc _ (0x2c :: _) (_ :: r'), List.cons_append] at e
      obtain ⟨⟨rfl, rfl, rfl, rfl⟩, rfl, rfl, rfl, rfl, -, e'⟩ := member_det hD ih h1 hk h2 h3 ht h4 h1' hk' h2' h3' ht' h4' (.inr (.inr rfl)) (.inr (.inr rfl)) e
      exact absurd e'.symm (members_ne hD hts h5')
    | cons h1' hk' h2' h3' ht' h4' h5' =>
      rw [List.append_assoc (_ ++ _ ++ _) (0x3a :: _) (_ :: r'), List.cons_append, List.append_assoc _ (0x2c :: _) (_ :: r'), List.cons_append] at e
      obtain ⟨⟨rfl, rfl, rfl, rfl⟩, rfl, rfl, rfl, rfl, -, e'⟩ := member_det hD ih h1 hk h2 h3 ht h4 h1' hk' h2' h3' ht' h4' (.inr (.inr rfl)) (.inr (.inr rfl)) e
      obtain ⟨rfl, rfl⟩ := ih' _ _ _ _ h5' e'
      simp

end

end Meojson
