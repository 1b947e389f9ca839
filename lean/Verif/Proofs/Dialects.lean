import Verif.Proofs.Located

/-! How the dialects compare, and the language each build reads. -/

namespace Meojson
open Spec

/-! ### From one dialect to another -/

theorem val_mono {D D' : Dialect} (hw : ∀ w, D.ws w → D'.ws w) (hc : D.trailingComma = true → D'.trailingComma = true)
    (hk : D'.distinctKeys = true → D.distinctKeys = true)
    {t : Text} {j : Doc} (h : Val D t j) (hs : ∀ t' s, t' <:+: t → D.str t' s → D'.str t' s) : Val D' t j := by
  revert hs
  refine Val.rec (D := D) (motive_1 := fun t j _ => (∀ t' s, t' <:+: t → D.str t' s → D'.str t' s) → Val D' t j)
    (motive_2 := fun t js _ => (∀ t' s, t' <:+: t → D.str t' s → D'.str t' s) → Elems D' t js)
    (motive_3 := fun t ms _ => (∀ t' s, t' <:+: t → D.str t' s → D'.str t' s) → Members D' t ms)
    ?_ ?_ ?_ ?_ ?_ ?_ ?_ ?_ ?_ ?_ ?_ ?_ ?_ ?_ ?_ h
  · intro _; exact .null
  · intro _; exact .true
  · intro _; exact .false
  · intro t hn _; exact .num hn
  · intro t s hs H; exact .str (H _ _ (List.infix_refl _) hs)
  · intro w h _; exact .arrEmpty (hw _ h)
  · intro t js _ ih H
    exact .arr (ih fun t' s hi => H t' s (hi.trans ⟨[0x5b], [0x5d], by simp⟩))
  · intro w h _; exact .objEmpty (hw _ h)
  · intro t ms _ hnd ih H
    exact .obj (ih fun t' s hi => H t' s (hi.trans ⟨[0x7b], [0x7d], by simp⟩)) (fun h => hnd (hk h))
  · intro w₁ t j w₂ h1 _ h2 ih H
    exact .last (hw _ h1) (ih fun t' s hi => H t' s (hi.trans ⟨w₁, w₂, by simp⟩)) (hw _ h2)
  · intro w₁ t j w₂ w₃ hcm h1 _ h2 h3 ih H
    exact .lastComma (hc hcm) (hw _ h1) (ih fun t' s hi => H t' s (hi.trans ⟨w₁, w₂ ++ 0x2c :: w₃, by simp⟩)) (hw _ h2) (hw _ h3)
  · intro w₁ t j w₂ ts js h1 _ h2 _ ih ih' H
    exact .cons (hw _ h1) (ih fun t' s hi => H t' s (hi.trans ⟨w₁, w₂ ++ 0x2c :: ts, by simp⟩)) (hw _ h2)
      (ih' fun t' s hi => H t' s (hi.trans ⟨w₁ ++ t ++ w₂ ++ [0x2c], [], by simp⟩))
  · intro w₁ kt k w₂ w₃ t j w₄ h1 hkt h2 h3 _ h4 ih H
    exact .last (hw _ h1) (H _ _ ⟨w₁, w₂ ++ 0x3a :: (w₃ ++ t ++ w₄), by simp⟩ hkt) (hw _ h2) (hw _ h3)
      (ih fun t' s hi => H t' s (hi.trans ⟨w₁ ++ kt ++ w₂ ++ 0x3a :: w₃, w₄, by simp⟩)) (hw _ h4)
  · intro w₁ kt k w₂ w₃ t j w₄ w₅ hcm h1 hkt h2 h3 _ h4 h5 ih H
    exact .lastComma (hc hcm) (hw _ h1) (H _ _ ⟨w₁, w₂ ++ 0x3a :: (w₃ ++ t ++ w₄ ++ 0x2c :: w₅), by simp⟩ hkt) (hw _ h2) (hw _ h3)
      (ih fun t' s hi => H t' s (hi.trans ⟨w₁ ++ kt ++ w₂ ++ 0x3a :: w₃, w₄ ++ 0x2c :: w₅, by simp⟩)) (hw _ h4) (hw _ h5)
  · intro w₁ kt k w₂ w₃ t j w₄ ts ms h1 hkt h2 h3 _ h4 _ ih ih' H
    exact .cons (hw _ h1) (H _ _ ⟨w₁, w₂ ++ 0x3a :: (w₃ ++ t ++ w₄ ++ 0x2c :: ts), by simp⟩ hkt) (hw _ h2) (hw _ h3)
      (ih fun t' s hi => H t' s (hi.trans ⟨w₁ ++ kt ++ w₂ ++ 0x3a :: w₃, w₄ ++ 0x2c :: ts, by simp⟩)) (hw _ h4)
      (ih' fun t' s hi => H t' s (hi.trans ⟨w₁ ++ kt ++ w₂ ++ 0x3a :: (w₃ ++ t ++ w₄ ++ [0x2c]), [], by simp⟩))

theorem jsonText_mono {D D' : Dialect} (hw : ∀ w, D.ws w → D'.ws w) (hc : D.trailingComma = true → D'.trailingComma = true)
    (hk : D'.distinctKeys = true → D.distinctKeys = true)
    {t : Text} {j : Doc} (h : JsonText D t j) (hs : ∀ t' s, t' <:+: t → D.str t' s → D'.str t' s) : JsonText D' t j := by
  obtain ⟨hj, w₁, b, w₂, h1, h2, h3, rfl⟩ := h
  exact ⟨hj, w₁, b, w₂, hw _ h1, val_mono hw hc hk h2 fun t' s hi => hs t' s (hi.trans ⟨w₁, w₂, rfl⟩), hw _ h3, rfl⟩

theorem mid_mono {l : Bool} {m ms : Text} (h : Mid false m ms) : Mid l m ms := by
  induction h with
  | nil => exact .nil
  | unicode h1 h2 h3 _ ih => exact .unicode h1 h2 h3 ih
  | plain h => simp at h

theorem lenientStr_mono {l : Bool} {t s : Text} (h : LenientStr false t s) : LenientStr l t s := by
  obtain ⟨b, hb, rfl⟩ := h
  refine ⟨b, ?_, rfl⟩
  induction hb with
  | nil => exact .nil
  | cons h _ ih =>
    refine .cons ?_ ih
    cases h with
    | plain h => exact .plain h
    | simple h => exact .simple h
    | unicode h1 h2 h3 => exact .unicode h1 h2 h3
    | pair h1 h2 h3 h4 h5 h6 => exact .pair h1 h2 h3 h4 (mid_mono h5) h6

/-- Without surrogate escapes, the lenient literals are those of RFC 8259. -/
theorem lenientStr_strict {l : Bool} {t s : Text} (h : LenientStr l t s) (hs : NoSurrogate t) : Str t s := by
  obtain ⟨b, hb, rfl⟩ := h
  refine ⟨b, ?_, rfl⟩
  have hs' : NoSurrogate b := fun h u hx hi => hs h u hx (hi.trans ⟨[0x22], [0x22], by simp⟩)
  clear hs
  induction hb with
  | nil => exact .nil
  | @cons t s ts ss h _ ih =>
    refine .cons ?_ (ih fun h u hx hi => hs' h u hx (hi.trans ⟨t, [], by simp⟩))
    cases h with
    | plain h => exact .plain h
    | simple h => exact .simple h
    | unicode h1 h2 h3 => exact .unicode h1 h2 h3
    | @pair h₁ u₁ m ms h₂ u₂ cp h1 h2 h3 h4 h5 h6 =>
      exact absurd h3 (hs' _ _ h1 ⟨[], m ++ 0x5c :: 0x75 :: h₂ ++ ts, by simp⟩).1

/-! ### Reading and the parser -/

theorem parser_eq_some {cfg : Cfg} {s : Bytes} {v : Value} :
    parser cfg s = some v ↔ ∃ rest, parseRun cfg (parseFuel s) s = .ok v rest := by
  unfold parser
  split
  · rename_i v' rest h; simp [h]
  · rename_i h
    simp only [reduceCtorEq, false_iff]
    rintro ⟨rest, hr⟩
    exact h _ _ hr

theorem parser_sound {cfg : Cfg} (ha : AccelOk cfg.accel) {s : Bytes} {v : Value} (h : parser cfg s = some v) :
    ∃ j, Reads cfg.jsonc cfg.accel.isSome s j ∧ v = j.toValue := by
  obtain ⟨rest, h⟩ := parser_eq_some.1 h
  obtain ⟨w₁, t, w₂, r, j, rfl, h1, h2, h3, h4, h5, rfl⟩ := parseRun_sound ha h
  exact ⟨j, ⟨_, _, ⟨h5, w₁, t, w₂, h1, lval_lenient ha h2, h3, rfl⟩, h4, rfl⟩, rfl⟩

theorem parser_complete' {cfg : Cfg} {l : Bool} (ha : AccelOk cfg.accel) (hg : l = true → Greedy cfg.accel)
    {s : Bytes} {j : Doc} (h : Reads cfg.jsonc l s j) : parser cfg s = some j.toValue := by
  obtain ⟨_, r, ⟨h5, w₁, t, w₂, h1, h2, h3, rfl⟩, h4, rfl⟩ := h
  have hD : Admits cfg ⟨wsOf cfg.jsonc, fun _ => LenientStr l, cfg.jsonc, true⟩ :=
    ⟨fun _ h => h, fun h => lenientStr_head h, fun h => parseStdstring_complete' ha hg h _, fun h => h, rfl⟩
  exact parser_eq_some.2 (parseRun_complete hD h5 h1 (val_locate (fun _ h => h) (fun h => h) (fun h => h) (fun _ _ _ h => h) h2 _) h3 h4
    (by simp only [parseFuel, List.length_append]; omega))

theorem parser_complete {cfg : Cfg} (ha : AccelOk cfg.accel) {s : Bytes} {j : Doc} (h : Reads cfg.jsonc false s j) :
    parser cfg s = some j.toValue := parser_complete' ha (by simp) h

theorem reads_of_text {D : Dialect} {c l : Bool} (hw : ∀ w, D.ws w → wsOf c w) (hc : D.trailingComma = true → c = true)
    (hk : D.distinctKeys = true)
    (hs : ∀ t s, D.str t s → LenientStr l t s) {t : Text} {j : Doc} (h : JsonText D t j) : Reads c l t j :=
  ⟨t, [], jsonText_mono hw hc (fun _ => hk) h fun t' s _ => hs t' s, .eof, by simp⟩

/-! ### A greedy reader

Not a build of the library: a block size of one byte. It reads every lenient text, so that all builds
can be compared with it. -/

def greedyTraits : Traits where
  W := Bool
  step := 1
  load b := match b with
    | [] => false
    | c :: _ => decide ¬ (0x20 ≤ c ∧ c ≠ 0x22 ∧ c ≠ 0x5c)
  less w _ := w
  equal _ _ := false
  bitwiseOr a b := a || b
  isAllZero w := !w
  firstNonzeroByte _ := 0

theorem greedy_sound : AccelOk (some greedyTraits) := by
  refine ⟨by decide, fun _ _ => rfl, ?_, ?_⟩
  · intro b hb h
    match b, hb with
    | [c], _ =>
      simp [Traits.scan, greedyTraits] at h
      intro d hd
      simp at hd; subst hd
      exact ⟨h.1, h.2.1, h.2.2⟩
  · intro b hb h
    simp [greedyTraits]

theorem greedy_greedy : Greedy (some greedyTraits) := by
  intro c s hc hs
  obtain ⟨h1, h2, h3⟩ := hc
  simp only [accelStep, skipStringLiteralWithAccel, List.length_cons]
  rw [accelLoop]
  simp [scanBlock, greedyTraits, h1, h2, h3]

/-- Two readings of a text give the same value. -/
theorem reads_unique {c l l' : Bool} {s : Bytes} {j j' : Doc} (h : Reads c l s j) (h' : Reads c l' s j') :
    j.toValue = j'.toValue := by
  have h1 := parser_complete' (cfg := ⟨c, some greedyTraits⟩) greedy_sound (fun _ => greedy_greedy) h
  have h2 := parser_complete' (cfg := ⟨c, some greedyTraits⟩) greedy_sound (fun _ => greedy_greedy) h'
  simpa [h1] using h2

/-! ### Texts without surrogate escapes -/

theorem reads_noSurrogate {c l l' : Bool} {s : Bytes} {j : Doc} (hs : NoSurrogate s) (h : Reads c l s j) :
    Reads c l' s j := by
  obtain ⟨t, r, h1, h2, rfl⟩ := h
  refine ⟨t, r, jsonText_mono (D := lenient c l) (D' := lenient c l') (fun _ h => h) (fun h => h) (fun h => h) h1 ?_, h2, rfl⟩
  intro t' s hi hl
  exact str_lenient (lenientStr_strict hl fun h u hx hi' => hs h u hx (hi'.trans (hi.trans ⟨[], r, by simp⟩)))

/-! ### The last byte -/

theorem val_last {D : Dialect} {t : Text} {j : Doc} (h : Val D t j) (hj : j.isContainer = true) :
    ∃ t' c, t = t' ++ [c] ∧ (c = 0x5d ∨ c = 0x7d) := by
  cases h with
  | arrEmpty _ => exact ⟨0x5b :: _, _, rfl, .inl rfl⟩
  | arr _ => exact ⟨0x5b :: _, _, rfl, .inl rfl⟩
  | objEmpty _ => exact ⟨0x7b :: _, _, rfl, .inr rfl⟩
  | obj _ _ => exact ⟨0x7b :: _, _, rfl, .inr rfl⟩
  | _ => simp [Doc.isContainer] at hj

theorem jsonText_last {D : Dialect} (hD : D.ws = Ws) {t : Text} {j : Doc} (h : JsonText D t j) :
    ∃ c, t.getLast? = some c ∧ (c = 0x5d ∨ c = 0x7d ∨ WsChar c) := by
  obtain ⟨hj, w₁, b, w₂, -, h2, h3, rfl⟩ := h
  obtain ⟨b', c, rfl, hc⟩ := val_last h2 hj
  rw [hD] at h3
  cases hw : w₂.getLast? with
  | none =>
    have : w₂ = [] := by simpa using hw
    subst this
    exact ⟨c, by simp, hc.imp_right .inl⟩
  | some d =>
    refine ⟨d, by rw [List.getLast?_append, hw]; rfl, .inr (.inr (h3 d ?_))⟩
    exact List.mem_of_getLast? hw

/-! ### Strict mode and JSONC mode -/

theorem skip_sim {α : Type} {s : Bytes} {f : Bytes → Res α} {v : α} {rest : Bytes}
    (h : ((skipWhitespace false s).bind fun more cur => if more = false then .fail else f cur) = .ok v rest) :
    ∃ cur, skipWhitespace true s = .ok true cur ∧ f cur = .ok v rest := by
  obtain ⟨more, cur, h1, h2⟩ := Res.bind_eq_ok.1 h
  cases more with
  | false => simp at h2
  | true =>
    obtain ⟨w, c, r, rfl, rfl, h3, h4⟩ := skipWhitespace_true h1
    exact ⟨_, skipWhitespace_complete true r (ws_wsC h3) h4, by simpa using h2⟩

/-- Everything before the text after the root is read in JSONC mode as in strict mode. -/
structure SimAt (a : Option Traits) (n : Nat) : Prop where
  value : ∀ s v rest, parseValue ⟨false, a⟩ n s = .ok v rest → parseValue ⟨true, a⟩ n s = .ok v rest
  array : ∀ s v rest, parseArray ⟨false, a⟩ n s = .ok v rest → parseArray ⟨true, a⟩ n s = .ok v rest
  arrayLoop : ∀ acc s v rest, Meojson.arrayLoop ⟨false, a⟩ n acc s = .ok v rest →
    Meojson.arrayLoop ⟨true, a⟩ n acc s = .ok v rest
  object : ∀ s v rest, parseObject ⟨false, a⟩ n s = .ok v rest → parseObject ⟨true, a⟩ n s = .ok v rest
  objectLoop : ∀ acc s v rest, Meojson.objectLoop ⟨false, a⟩ n acc s = .ok v rest →
    Meojson.objectLoop ⟨true, a⟩ n acc s = .ok v rest

theorem simAt (a : Option Traits) (n : Nat) : SimAt a n := by
  induction n with
  | zero => constructor <;> intros <;> simp_all [parseValue, parseArray, Meojson.arrayLoop, parseObject, Meojson.objectLoop]
  | succ n ih =>
    constructor
    · intro s v rest h
      cases s with
      | nil => simp [parseValue] at h
      | cons c s =>
        simp only [parseValue] at h ⊢
        repeat' split at h
        all_goals simp_all
        · exact ih.array _ _ _ h
        · exact ih.object _ _ _ h
    · intro s v rest h
      cases s with
      | nil => simp [parseArray] at h
      | cons c s =>
        simp only [parseArray] at h ⊢
        split at h
        · simp at h
        rename_i hc
        rw [if_neg hc]
        obtain ⟨cur, h1, h2⟩ := skip_sim h
        rw [h1]
        simp only [Res.bind_ok]
        cases cur with
        | nil => simp at h2
        | cons d cur =>
          simp only [reduceCtorEq, if_false] at h2 ⊢
          split at h2
          · rename_i hd; simp [hd, h2]
          rename_i hd
          rw [if_neg hd]
          obtain ⟨r, cur, h3, h4⟩ := Res.bind_eq_ok.1 h2
          rw [ih.arrayLoop _ _ _ _ h3]
          obtain ⟨cur', h5, h6⟩ := skip_sim h4
          simp only [Res.bind_ok, h5]
          simpa using h6
    · intro acc s v rest h
      simp only [Meojson.arrayLoop] at h ⊢
      obtain ⟨cur, h1, h2⟩ := skip_sim h
      rw [h1]
      simp only [Res.bind_ok]
      cases cur with
      | nil => simp at h2
      | cons c cur =>
        simp only [reduceCtorEq, if_false, false_and, true_and] at h2 ⊢
        obtain ⟨val, cur', h3, h4⟩ := Res.bind_eq_ok.1 h2
        have hc : c ≠ 0x5d := by
          rintro rfl
          cases n <;> simp [parseValue, isDigit] at h3
        rw [if_neg hc, ih.value _ _ _ h3]
        obtain ⟨cur', h5, h6⟩ := skip_sim h4
        simp only [Res.bind_ok, h5]
        cases cur' with
        | nil => simp at h6
        | cons d cur' =>
          simp only [reduceCtorEq, if_false] at h6 ⊢
          split at h6
          · rename_i hd; rw [if_pos hd]; exact ih.arrayLoop _ _ _ _ h6
          · rename_i hd; rw [if_neg hd]; exact h6
    · intro s v rest h
      cases s with
      | nil => simp [parseObject] at h
      | cons c s =>
        simp only [parseObject] at h ⊢
        split at h
        · simp at h
        rename_i hc
        rw [if_neg hc]
        obtain ⟨cur, h1, h2⟩ := skip_sim h
        rw [h1]
        simp only [Res.bind_ok]
        cases cur with
        | nil => simp at h2
        | cons d cur =>
          simp only [reduceCtorEq, if_false] at h2 ⊢
          split at h2
          · rename_i hd; simp [hd, h2]
          rename_i hd
          rw [if_neg hd]
          obtain ⟨r, cur, h3, h4⟩ := Res.bind_eq_ok.1 h2
          rw [ih.objectLoop _ _ _ _ h3]
          obtain ⟨cur', h5, h6⟩ := skip_sim h4
          simp only [Res.bind_ok, h5]
          simpa using h6
    · intro acc s v rest h
      simp only [Meojson.objectLoop] at h ⊢
      obtain ⟨cur, h1, h2⟩ := skip_sim h
      rw [h1]
      simp only [Res.bind_ok]
      cases cur with
      | nil => simp at h2
      | cons c cur =>
        simp only [reduceCtorEq, if_false, false_and, true_and] at h2 ⊢
        obtain ⟨key, cur', h3, h4⟩ := Res.bind_eq_ok.1 h2
        have hc : c ≠ 0x7d := by
          rintro rfl
          simp [parseStdstring] at h3
        rw [if_neg hc, h3]
        obtain ⟨cur', h5, h6⟩ := skip_sim h4
        simp only [Res.bind_ok, h5]
        cases cur' with
        | nil => simp at h6
        | cons d cur' =>
          simp only [reduceCtorEq, if_false] at h6 ⊢
          split at h6
          · simp at h6
          rename_i hd
          rw [if_neg hd]
          obtain ⟨cur', h7, h8⟩ := skip_sim h6
          simp only [Res.bind_ok, h7, reduceCtorEq, if_false]
          obtain ⟨val, cur', h9, h10⟩ := Res.bind_eq_ok.1 h8
          rw [ih.value _ _ _ h9]
          obtain ⟨cur', h11, h12⟩ := skip_sim h10
          simp only [Res.bind_ok, h11, reduceCtorEq, if_false]
          split at h12
          · simp at h12
          rename_i he
          rw [if_neg he]
          cases cur' with
          | nil => simp at h12
          | cons x cur' =>
            simp only at h12 ⊢
            split at h12
            · rename_i hx; rw [if_pos hx]; exact ih.objectLoop _ _ _ _ h12
            · rename_i hx; rw [if_neg hx]; exact h12

/-- A text read in strict mode is read in JSONC mode with the same result, unless a `/` follows the root. -/
theorem parsec_of_parse {a : Option Traits} (ha : AccelOk a) {s : Bytes} {v : Value} (h : parse a s = some v) :
    parsec a s = some v ∨
      ∃ t q j, JsonText (lenient false a.isSome) t j ∧ v = j.toValue ∧ s = t ++ 0x2f :: q := by
  obtain ⟨rest, h⟩ := parser_eq_some.1 h
  unfold parseRun at h
  obtain ⟨more, cur, h1, h2⟩ := Res.bind_eq_ok.1 h
  cases more with
  | false => simp at h2
  | true =>
  obtain ⟨w₁, c, cur, rfl, hs, hw₁, hc⟩ := skipWhitespace_true h1
  replace h1 : skipWhitespace true s = .ok true (c :: cur) := by
    rw [hs]; exact skipWhitespace_complete true cur (ws_wsC hw₁) hc
  simp only [reduceCtorEq, if_false] at h2
  obtain ⟨v', cur', h3, h4⟩ := Res.bind_eq_ok.1 h2
  obtain ⟨more, cur'', h5, h6⟩ := Res.bind_eq_ok.1 h4
  cases more with
  | true => simp at h6
  | false =>
    simp at h6
    obtain ⟨w, r, rfl, hw, hr⟩ := skipWhitespace_false h5
    have key : Stop true r → parsec a s = some v := by
      intro hr
      obtain ⟨rest', h7⟩ := hr.skip
      refine parser_eq_some.2 ⟨rest', ?_⟩
      unfold parseRun
      have h8 : (if c = 0x5b then parseArray ⟨true, a⟩ (parseFuel s) (c :: cur)
        else if c = 0x7b then parseObject ⟨true, a⟩ (parseFuel s) (c :: cur) else .fail) = .ok v' (w ++ r) := by
        split at h3
        · rename_i hc; rw [if_pos hc]; exact (simAt a _).array _ _ _ h3
        · rename_i hc
          rw [if_neg hc]
          split at h3
          · rename_i hc'; rw [if_pos hc']; exact (simAt a _).object _ _ _ h3
          · simp at h3
      simp [h1, h8, skipWhitespace_append true r (ws_wsC hw), h7, h6]
    cases hr with
    | eof => exact .inl (key .eof)
    | nul => exact .inl (key .nul)
    | @slash q _ =>
      right
      have hsound : ∃ b j, c :: cur = b ++ (w ++ 0x2f :: q) ∧ Val (lenient false a.isSome) b j ∧ v' = j.toValue ∧ j.isContainer = true := by
        split at h3
        · obtain ⟨t, j, h, h', h''⟩ := (soundAt (cfg := ⟨false, a⟩) ha _).array _ _ _ h3
          exact ⟨t, j, h, lval_lenient ha h', h''⟩
        split at h3
        · obtain ⟨t, j, h, h', h''⟩ := (soundAt (cfg := ⟨false, a⟩) ha _).object _ _ _ h3
          exact ⟨t, j, h, lval_lenient ha h', h''⟩
        · simp at h3
      obtain ⟨b, j, e1, e2, e3, e4⟩ := hsound
      exact ⟨w₁ ++ b ++ w, q, j, ⟨e4, w₁, b, w, hw₁, e2, hw, rfl⟩, h6.1 ▸ e3, by rw [hs, e1]; simp⟩
    | lineEof h => simp at h
    | badSlash h => simp at h
    | openBlock h => simp at h

end Meojson
