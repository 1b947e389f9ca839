import Verif.Proofs.Unique

/-! Distinct keys; texts without comments; surrogate escapes inside literals. -/

namespace Meojson
open Spec

theorem val_distinct {D : Dialect} (hd : D.distinctKeys = true) {t : Text} {j : Doc} (h : Val D t j) : j.Distinct := by
  refine Val.rec (D := D) (motive_1 := fun t j _ => j.Distinct) (motive_2 := fun t js _ => Doc.DistinctAll js)
    (motive_3 := fun t ms _ => Doc.DistinctMembers ms) ?_ ?_ ?_ ?_ ?_ ?_ ?_ ?_ ?_ ?_ ?_ ?_ ?_ ?_ ?_ h
  all_goals intros
  all_goals simp_all [Doc.Distinct, Doc.DistinctAll, Doc.DistinctMembers]

theorem val_of_distinct {D : Dialect} {t : Text} {j : Doc} (h : Val D t j) (hj : j.Distinct) :
    Val { D with distinctKeys := true } t j := by
  revert hj
  refine Val.rec (D := D) (motive_1 := fun t j _ => j.Distinct → Val { D with distinctKeys := true } t j)
    (motive_2 := fun t js _ => Doc.DistinctAll js → Elems { D with distinctKeys := true } t js)
    (motive_3 := fun t ms _ => Doc.DistinctMembers ms → Members { D with distinctKeys := true } t ms)
    ?_ ?_ ?_ ?_ ?_ ?_ ?_ ?_ ?_ ?_ ?_ ?_ ?_ ?_ ?_ h
  · intro _; exact .null
  · intro _; exact .true
  · intro _; exact .false
  · intro t h _; exact .num h
  · intro t s h _; exact .str h
  · intro w h _; exact .arrEmpty h
  · intro t js _ ih hj; exact .arr (ih (by simpa [Doc.Distinct] using hj))
  · intro w h _; exact .objEmpty h
  · intro t ms _ _ ih hj
    simp only [Doc.Distinct] at hj
    exact .obj (ih hj.2) (fun _ => hj.1)
  · intro w₁ t j w₂ h1 _ h2 ih hj
    simp only [Doc.DistinctAll] at hj
    exact .last h1 (ih hj.1) h2
  · intro w₁ t j w₂ w₃ hcm h1 _ h2 h3 ih hj
    simp only [Doc.DistinctAll] at hj
    exact .lastComma hcm h1 (ih hj.1) h2 h3
  · intro w₁ t j w₂ ts js h1 _ h2 _ ih ih' hj
    simp only [Doc.DistinctAll] at hj
    exact .cons h1 (ih hj.1) h2 (ih' hj.2)
  · intro w₁ kt k w₂ w₃ t j w₄ h1 hk h2 h3 _ h4 ih hj
    simp only [Doc.DistinctMembers] at hj
    exact .last h1 hk h2 h3 (ih hj.1) h4
  · intro w₁ kt k w₂ w₃ t j w₄ w₅ hcm h1 hk h2 h3 _ h4 h5 ih hj
    simp only [Doc.DistinctMembers] at hj
    exact .lastComma hcm h1 hk h2 h3 (ih hj.1) h4 h5
  · intro w₁ kt k w₂ w₃ t j w₄ ts ms h1 hk h2 h3 _ h4 _ ih ih' hj
    simp only [Doc.DistinctMembers] at hj
    exact .cons h1 hk h2 h3 (ih hj.1) h4 (ih' hj.2)

theorem jsonText_distinct {D : Dialect} (hd : D.distinctKeys = true) {t : Text} {j : Doc} (h : JsonText D t j) : j.Distinct := by
  obtain ⟨_, _, _, _, _, h, _⟩ := h
  exact val_distinct hd h

theorem jsonText_of_distinct {D : Dialect} {t : Text} {j : Doc} (h : JsonText D t j) (hj : j.Distinct) :
    JsonText { D with distinctKeys := true } t j := by
  obtain ⟨hc, w₁, b, w₂, h1, h2, h3, rfl⟩ := h
  exact ⟨hc, w₁, b, w₂, h1, val_of_distinct h2 hj, h3, rfl⟩

/-- A text of the grammar that is also read with something after it, is read as itself. -/
theorem jsonText_reads {k : Bool} {D : Dialect} (hD : Lexical k D)
    (hs : ∀ t s, LenientStr true t s → D.str t s) (hw : ∀ w, wsOf k w → D.ws w)
    (hc : k = true → D.trailingComma = true) (hk : D.distinctKeys = false) {t : Text} {j j' : Doc} {l : Bool}
    (h : JsonText D t j) (h' : Reads k l t j') : j = j' := by
  obtain ⟨hj, w₁, b, w₂, h1, h2, h3, rfl⟩ := h
  obtain ⟨t', r, ⟨hj', w₁', b', w₂', h1', h2', h3', rfl⟩, hr, e⟩ := h'
  have hv : Val D b' j' := val_mono (D := lenient k l) (D' := D) hw hc (by simp [hk]) h2'
    (fun t' s _ ht => hs _ _ (lenientStr_true ht))
  obtain ⟨c, y, rfl, hc1⟩ := val_sig hD h2
  obtain ⟨c', y', rfl, hc1'⟩ := val_sig hD hv
  have e1 : w₁ ++ c :: (y ++ w₂) = w₁' ++ c' :: (y' ++ (w₂' ++ r)) := by simpa using e
  obtain ⟨rfl, rfl, e2⟩ := ws_det (hD.ws _ h1) h1' hc1.1 hc1'.1 e1
  have e3 : c :: y ++ w₂ = c :: y' ++ (w₂' ++ r) := by simpa using e2
  exact (val_det hD h2 _ _ _ _ hv e3 (.inl hj) (.inl hj')).2

/-! ### Without comments and trailing commas -/

theorem val_erase {D D' : Dialect} (hw : D'.ws []) (hs : ∀ t s, D.str t s → D'.str t s)
    (hk : D'.distinctKeys = true → D.distinctKeys = true) {t : Text} {j : Doc} (h : Val D t j) :
    ∃ t', t'.Sublist t ∧ Val D' t' j := by
  refine Val.rec (D := D) (motive_1 := fun t j _ => ∃ t', t'.Sublist t ∧ Val D' t' j)
    (motive_2 := fun t js _ => ∃ t', t'.Sublist t ∧ Elems D' t' js)
    (motive_3 := fun t ms _ => ∃ t', t'.Sublist t ∧ Members D' t' ms)
    ?_ ?_ ?_ ?_ ?_ ?_ ?_ ?_ ?_ ?_ ?_ ?_ ?_ ?_ ?_ h
  · exact ⟨_, .refl _, .null⟩
  · exact ⟨_, .refl _, .true⟩
  · exact ⟨_, .refl _, .false⟩
  · intro t h; exact ⟨_, .refl _, .num h⟩
  · intro t s h; exact ⟨_, .refl _, .str (hs _ _ h)⟩
  · intro w h; exact ⟨_, by simp, .arrEmpty hw⟩
  · rintro t js _ ⟨t', h1, h2⟩
    exact ⟨_, (h1.append_right _).cons_cons _, .arr h2⟩
  · intro w h; exact ⟨_, by simp, .objEmpty hw⟩
  · rintro t js _ hnd ⟨t', h1, h2⟩
    exact ⟨_, (h1.append_right _).cons_cons _, .obj h2 fun h => hnd (hk h)⟩
  · rintro w₁ t j w₂ _ _ _ ⟨t', h1, h2⟩
    refine ⟨[] ++ t' ++ [], ?_, .last hw h2 hw⟩
    exact ((List.nil_sublist _).append h1).append (List.nil_sublist _)
  · rintro w₁ t j w₂ w₃ _ _ _ _ _ ⟨t', h1, h2⟩
    refine ⟨[] ++ t' ++ [], ?_, .last hw h2 hw⟩
    exact (((List.nil_sublist _).append h1).append (List.nil_sublist _)).trans (List.sublist_append_left _ _)
  · rintro w₁ t j w₂ ts js _ _ _ _ ⟨t', h1, h2⟩ ⟨t'', h3, h4⟩
    refine ⟨[] ++ t' ++ [] ++ 0x2c :: t'', ?_, .cons hw h2 hw h4⟩
    exact (((List.nil_sublist _).append h1).append (List.nil_sublist _)).append (h3.cons_cons _)
  · rintro w₁ kt k w₂ w₃ t j w₄ _ hkt _ _ _ _ ⟨t', h1, h2⟩
    refine ⟨[] ++ kt ++ [] ++ 0x3a :: ([] ++ t' ++ []), ?_, .last hw (hs _ _ hkt) hw hw h2 hw⟩
    exact (((List.nil_sublist _).append (.refl _)).append (List.nil_sublist _)).append
      ((((List.nil_sublist _).append h1).append (List.nil_sublist _)).cons_cons _)
  · rintro w₁ kt k w₂ w₃ t j w₄ w₅ _ _ hkt _ _ _ _ _ ⟨t', h1, h2⟩
    refine ⟨[] ++ kt ++ [] ++ 0x3a :: ([] ++ t' ++ []), ?_, .last hw (hs _ _ hkt) hw hw h2 hw⟩
    exact (((List.nil_sublist _).append (.refl _)).append (List.nil_sublist _)).append
      (((((List.nil_sublist _).append h1).append (List.nil_sublist _)).trans (List.sublist_append_left _ _)).cons_cons _)
  · rintro w₁ kt k w₂ w₃ t j w₄ ts ms _ hkt _ _ _ _ _ ⟨t', h1, h2⟩ ⟨t'', h3, h4⟩
    refine ⟨[] ++ kt ++ [] ++ 0x3a :: ([] ++ t' ++ [] ++ 0x2c :: t''), ?_, .cons hw (hs _ _ hkt) hw hw h2 hw h4⟩
    exact (((List.nil_sublist _).append (.refl _)).append (List.nil_sublist _)).append
      (((((List.nil_sublist _).append h1).append (List.nil_sublist _)).append (h3.cons_cons _)).cons_cons _)

/-! ### Surrogate escapes -/

theorem hex4_det {h h' : Text} {u u' : Nat} {x x' : Text} (hx : Hex4 h u) (hx' : Hex4 h' u') (e : h ++ x = h' ++ x') :
    h = h' ∧ u = u' ∧ x = x' := by
  obtain ⟨a, b, c, d, p, q, r, s, rfl, h1, h2, h3, h4, rfl⟩ := hx
  obtain ⟨a', b', c', d', p', q', r', s', rfl, h1', h2', h3', h4', rfl⟩ := hx'
  simp at e
  obtain ⟨rfl, rfl, rfl, rfl, rfl⟩ := e
  simp_all

theorem lenientChars_strChar {l : Bool} {t st body s z x : Text} (ht : StrChar t st) (hb : LenientChars l body s)
    (e : body ++ 0x22 :: z = t ++ x) : ∃ body' s', body = t ++ body' ∧ LenientChars l body' s' := by
  cases hb with
  | nil =>
    cases ht with
    | plain h => simp at e; exact absurd (e.1 ▸ h) not_unescaped_quote
    | simple h => simp at e
    | unicode _ _ _ => simp at e
    | pair _ _ _ _ _ => simp at e
  | @cons t₁ s₁ ts ss h1 h2 =>
    cases ht with
    | @plain c hc =>
      cases h1 with
      | plain hc' => simp at e; exact ⟨ts, ss, by simp [e.1], h2⟩
      | simple h => simp at e; exact absurd (e.1 ▸ hc) not_unescaped_backslash
      | unicode _ _ _ => simp at e; exact absurd (e.1 ▸ hc) not_unescaped_backslash
      | pair _ _ _ _ _ _ => simp at e; exact absurd (e.1 ▸ hc) not_unescaped_backslash
    | @simple c d hc =>
      have hne : c ≠ 0x75 := (simpleEscape_complete hc).2
      cases h1 with
      | plain hc' => simp at e; exact absurd (e.1 ▸ hc') not_unescaped_backslash
      | simple h => simp at e; exact ⟨ts, ss, by simp [e.1], h2⟩
      | unicode _ _ _ => simp at e; exact absurd e.1.symm hne
      | pair _ _ _ _ _ _ => simp at e; exact absurd e.1.symm hne
    | @unicode h u hx hnh hnl =>
      cases h1 with
      | plain hc' => simp at e; exact absurd (e.1 ▸ hc') not_unescaped_backslash
      | simple h => simp at e; exact absurd e.1 (simpleEscape_complete h).2
      | unicode hx' _ _ =>
        simp at e
        obtain ⟨rfl, -, -⟩ := hex4_det hx' hx e
        exact ⟨ts, ss, rfl, h2⟩
      | pair hx' _ hh _ _ _ =>
        simp at e
        obtain ⟨rfl, rfl, -⟩ := hex4_det hx' hx e
        exact absurd hh hnh
    | @pair h₁ u₁ h₂ u₂ cp hx₁ hx₂ hh hl hcp =>
      cases h1 with
      | plain hc' => simp at e; exact absurd (e.1 ▸ hc') not_unescaped_backslash
      | simple h => simp at e; exact absurd e.1 (simpleEscape_complete h).2
      | unicode hx' hnh _ =>
        simp at e
        obtain ⟨rfl, rfl, -⟩ := hex4_det hx' hx₁ e
        exact absurd hh hnh
      | pair hx' hx₂' _ _ hm _ =>
        simp at e
        obtain ⟨rfl, rfl, e'⟩ := hex4_det hx' hx₁ e
        cases hm with
        | nil =>
          simp at e'
          obtain ⟨rfl, -, -⟩ := hex4_det hx₂' hx₂ e'
          exact ⟨ts, ss, by simp, h2⟩
        | unicode hx'' _ hnl _ =>
          simp at e'
          obtain ⟨rfl, rfl, -⟩ := hex4_det hx'' hx₂ e'
          exact absurd hl hnl
        | plain _ hc' => simp at e'; exact absurd (e'.1 ▸ hc') not_unescaped_backslash

theorem lenientChars_strChars {l : Bool} {p sp : Text} (hp : StrChars p sp) : ∀ {body s z x : Text}, LenientChars l body s →
    body ++ 0x22 :: z = p ++ x → ∃ body' s', body = p ++ body' ∧ LenientChars l body' s' := by
  induction hp with
  | nil => intro body s z x hb _; exact ⟨body, s, rfl, hb⟩
  | @cons t st ts ss ht _ ih =>
    intro body s z x hb e
    obtain ⟨b, s', rfl, hb'⟩ := lenientChars_strChar (x := ts ++ x) ht hb (by simpa using e)
    obtain ⟨b', s'', rfl, hb''⟩ := ih (z := z) (x := x) hb' (by simpa using e)
    exact ⟨b', s'', by simp, hb''⟩

theorem lenientChars_surrogate {l : Bool} {h : Text} {u : Nat} (hx : Hex4 h u) {body s z x : Text} (hb : LenientChars l body s)
    (e : body ++ 0x22 :: z = 0x5c :: 0x75 :: (h ++ x)) : ¬ LowSurrogate u ∧
    (HighSurrogate u → ∃ m ms h₂ u₂ y, x = m ++ 0x5c :: 0x75 :: (h₂ ++ y) ∧ Mid l m ms ∧ Hex4 h₂ u₂ ∧ LowSurrogate u₂) := by
  cases hb with
  | nil => simp at e
  | @cons t₁ s₁ ts ss h1 h2 =>
    cases h1 with
    | plain hc' => simp at e; exact absurd (e.1 ▸ hc') not_unescaped_backslash
    | simple h => simp at e; exact absurd e.1 (simpleEscape_complete h).2
    | unicode hx' hnh hnl =>
      simp at e
      obtain ⟨rfl, rfl, -⟩ := hex4_det hx' hx e
      exact ⟨hnl, fun h => absurd h hnh⟩
    | @pair h₁ u₁ m ms h₂ u₂ cp hx₁ hx₂ hh hl hm hcp =>
      simp at e
      obtain ⟨rfl, rfl, e'⟩ := hex4_det hx₁ hx e
      refine ⟨?_, fun _ => ⟨m, ms, h₂, u₂, ts ++ 0x22 :: z, by simpa using e'.symm, hm, hx₂, hl⟩⟩
      unfold HighSurrogate LowSurrogate at *
      omega

/-! ### The standard dialects -/

theorem rfc_reads (k : Bool) {t : Text} {j : Doc} (h : JsonText rfc8259 t j) : Reads k false t j :=
  reads_of_text (D := rfc8259) (c := k) (l := false) (fun _ h => ws_wsOf k h) (by simp [rfc8259]) rfl (fun _ _ h => str_lenient h) h

theorem jsonc_reads {t : Text} {j : Doc} (h : JsonText jsonc t j) : Reads true false t j :=
  reads_of_text (D := jsonc) (c := true) (l := false) (fun _ h => h) (fun _ => rfl) rfl (fun _ _ h => str_lenient h) h

theorem rfc_of_lenient {l : Bool} {t r : Text} {j : Doc} (hs : NoSurrogate (t ++ r)) (h : JsonText (lenient false l) t j) :
    JsonText rfc8259 t j :=
  jsonText_mono (D := lenient false l) (D' := rfc8259) (fun _ h => h) (fun h => h) (fun h => h) h fun _ _ hi hl =>
    lenientStr_strict hl fun h u hx hi' => hs h u hx (hi'.trans (hi.trans ⟨[], r, by simp⟩))

theorem jsonc_of_lenient {l : Bool} {t r : Text} {j : Doc} (hs : NoSurrogate (t ++ r)) (h : JsonText (lenient true l) t j) :
    JsonText jsonc t j :=
  jsonText_mono (D := lenient true l) (D' := jsonc) (fun _ h => h) (fun h => h) (fun h => h) h fun _ _ hi hl =>
    lenientStr_strict hl fun h u hx hi' => hs h u hx (hi'.trans (hi.trans ⟨[], r, by simp⟩))

theorem emptyObject_text (k l : Bool) : JsonText (lenient k l) [0x7b, 0x7d] (.obj []) :=
  ⟨rfl, [], [0x7b, 0x7d], [], wsOf_nil k, .objEmpty (D := lenient k l) (w := []) (wsOf_nil k), wsOf_nil k, rfl⟩

theorem emptyObject_value : (Doc.obj []).toValue = .obj .object [] := by
  simp [Doc.toValue, Doc.toMembers, sortMembers]

/-- A text with repeated keys is not read. -/
theorem not_reads_dup {k l : Bool} {t : Text} {j j' : Doc} (h : JsonText ⟨wsOf k, LenientStr true, k, false⟩ t j) (hj : ¬ j.Distinct)
    (h' : Reads k l t j') : False := by
  have hr := jsonText_reads (k := k) (D := ⟨wsOf k, LenientStr true, k, false⟩) ⟨fun _ h => h, fun _ _ h => h⟩
    (fun _ _ h => h) (fun _ h => h) (fun h => h) rfl h h'
  obtain ⟨t', r, h'', -, -⟩ := h'
  exact hj (hr ▸ jsonText_distinct rfl h'')

end Meojson
