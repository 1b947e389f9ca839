import Verif.Proofs.ParseComplete

/-! Every text that is read belongs to the grammar (with the lenient string literals), the result is the value
it denotes, no byte past the end is read, and the fuel suffices. -/

namespace Meojson
open Spec

/-- The language a configuration of the parser reads, given its reader of string literals. -/
def dialectOf (cfg : Cfg) : LDialect := ⟨wsOf cfg.jsonc, fun r t s => parseStdstring cfg.accel (t ++ r) = .ok s r, cfg.jsonc, true⟩

theorem skip_bind_ok {α : Type} {j : Bool} {s : Bytes} {f : UInt8 → Bytes → Res α} {g : Res α} {v : α} {rest : Bytes}
    (h : ((skipWhitespace j s).bind fun more cur =>
      if more = false then .fail else match cur with | [] => g | c :: r => f c r) = .ok v rest) :
    ∃ w c r, s = w ++ c :: r ∧ wsOf j w ∧ Sig c ∧ f c r = .ok v rest := by
  obtain ⟨more, cur, h1, h2⟩ := Res.bind_eq_ok.1 h
  cases more with
  | false => simp at h2
  | true =>
    obtain ⟨w, c, r, rfl, h3, h4, h5⟩ := skipWhitespace_true h1
    exact ⟨w, c, r, h3, h4, h5, by simpa using h2⟩

theorem matchLiteral_sound {l s rest : Bytes} {u : Unit} (h : matchLiteral l s = .ok u rest) : s = l ++ rest := by
  induction l generalizing s with
  | nil => simp [matchLiteral] at h; simp [h]
  | cons c l ih =>
    cases s with
    | nil => simp [matchLiteral] at h
    | cons d s =>
      simp only [matchLiteral] at h
      split at h
      · rename_i hc; simp [hc, ih h]
      · simp at h

/-- What soundness says about each function. -/
structure SoundAt (cfg : Cfg) (n : Nat) : Prop where
  value : ∀ s v rest, parseValue cfg n s = .ok v rest →
    ∃ t j, s = t ++ rest ∧ LVal (dialectOf cfg) rest t j ∧ v = j.toValue
  array : ∀ s v rest, parseArray cfg n s = .ok v rest →
    ∃ t j, s = t ++ rest ∧ LVal (dialectOf cfg) rest t j ∧ v = j.toValue ∧ j.isContainer = true
  arrayLoop : ∀ acc s v rest, arrayLoop cfg n acc s = .ok v rest → (∃ c r, rest = c :: r ∧ Sig c) ∧
    ((∃ t js, s = t ++ rest ∧ LElems (dialectOf cfg) rest t js ∧ v = acc ++ Doc.toValues js) ∨
     (cfg.jsonc = true ∧ ∃ w r, rest = 0x5d :: r ∧ s = w ++ rest ∧ wsOf cfg.jsonc w ∧ v = acc))
  object : ∀ s v rest, parseObject cfg n s = .ok v rest →
    ∃ t j, s = t ++ rest ∧ LVal (dialectOf cfg) rest t j ∧ v = j.toValue ∧ j.isContainer = true
  objectLoop : ∀ acc, (acc.map Prod.fst).Nodup → ∀ s v rest, objectLoop cfg n (sortMembers acc) s = .ok v rest →
    (∃ c r, rest = c :: r ∧ Sig c) ∧
    ((∃ t ms, s = t ++ rest ∧ LMembers (dialectOf cfg) rest t ms ∧ ((acc ++ Doc.toMembers ms).map Prod.fst).Nodup ∧
        v = sortMembers (acc ++ Doc.toMembers ms)) ∨
     (cfg.jsonc = true ∧ ∃ w r, rest = 0x7d :: r ∧ s = w ++ rest ∧ wsOf cfg.jsonc w ∧ v = sortMembers acc))

theorem soundAt {cfg : Cfg} (ha : AccelOk cfg.accel) (n : Nat) : SoundAt cfg n := by
  induction n with
  | zero =>
    constructor <;> intros <;> simp_all [parseValue, parseArray, Meojson.arrayLoop, parseObject, Meojson.objectLoop]
  | succ n ih =>
    constructor
    · -- parse_value
      intro s v rest h
      cases s with
      | nil => simp [parseValue] at h
      | cons c s =>
        simp only [parseValue] at h
        split at h
        · obtain ⟨_, s', h1, h2⟩ := Res.bind_eq_ok.1 h
          have := matchLiteral_sound h1
          cases h2
          exact ⟨_, .null, this, .null, by simp [Doc.toValue, Value.null]⟩
        split at h
        · simp only [parseBoolean] at h
          split at h
          · obtain ⟨_, s', h1, h2⟩ := Res.bind_eq_ok.1 h
            have := matchLiteral_sound h1
            cases h2
            exact ⟨_, .bool true, this, .true, by simp [Doc.toValue]; rfl⟩
          split at h
          · obtain ⟨_, s', h1, h2⟩ := Res.bind_eq_ok.1 h
            have := matchLiteral_sound h1
            cases h2
            exact ⟨_, .bool false, this, .false, by simp [Doc.toValue]; rfl⟩
          · simp at h
        split at h
        · obtain ⟨t, h1, h2, h3⟩ := parseNumber_sound h
          exact ⟨t, .num t, h1, .num h2, by simp [Doc.toValue, h3]⟩
        split at h
        · obtain ⟨v', s', h1, h2⟩ := Res.bind_eq_ok.1 h
          obtain ⟨t, h3, -⟩ := parseStdstring_sound ha h1
          cases h2
          exact ⟨t, .str v', h3, .str (by rw [h3] at h1; exact h1), by simp [Doc.toValue]⟩
        split at h
        · obtain ⟨t, j, h1, h2, h3, _⟩ := ih.array _ _ _ h; exact ⟨t, j, h1, h2, h3⟩
        split at h
        · obtain ⟨t, j, h1, h2, h3, _⟩ := ih.object _ _ _ h; exact ⟨t, j, h1, h2, h3⟩
        · simp at h
    · -- parse_array
      intro s v rest h
      cases s with
      | nil => simp [parseArray] at h
      | cons c s =>
        simp only [parseArray] at h
        split at h
        · simp at h
        rename_i hc
        have hc : c = 0x5b := by simpa using hc
        subst hc
        have hh := skip_bind_ok h
        clear h
        obtain ⟨w, d, r, rfl, hw, hd, h⟩ := hh
        split at h
        · rename_i hd'
          subst hd'
          cases h
          exact ⟨0x5b :: (w ++ [0x5d]), .arr [], by simp, .arrEmpty hw, by simp [Doc.toValue, Doc.toValues, Value.ofArray], rfl⟩
        · rename_i hd'
          obtain ⟨res, cur, h1, h2⟩ := Res.bind_eq_ok.1 h
          obtain ⟨⟨c', r', rfl, hc'⟩, h3⟩ := ih.arrayLoop _ _ _ _ h1
          rw [skipWhitespace_sig _ _ hc'] at h2
          simp only [Res.bind_ok, Bool.true_eq_false, if_false] at h2
          split at h2
          · rename_i hc''
            subst hc''
            cases h2
            rcases h3 with ⟨t, js, h3, h4, rfl⟩ | ⟨_, w', r'', h4, h5, h6, rfl⟩
            · -- the white space skipped before the loop belongs to the first element
              rw [h3]
              have h4' : LElems (dialectOf cfg) (0x5d :: rest) (w ++ t) js := by
                cases h4 with
                | last a b c => have := LElems.last (D := dialectOf cfg) (wsOf_append hw a) b c; simpa using this
                | lastComma z a b c d =>
                  have := LElems.lastComma (D := dialectOf cfg) z (wsOf_append hw a) b c d; simpa using this
                | cons a b c d => have := LElems.cons (D := dialectOf cfg) (wsOf_append hw a) b c d; simpa using this
              exact ⟨0x5b :: ((w ++ t) ++ [0x5d]), .arr js, by simp, .arr h4', by simp [Doc.toValue, Value.ofArray], rfl⟩
            · exfalso
              have := skipWhitespace_complete cfg.jsonc rest h6 (c := 0x5d) (sig_of (by simp))
              rw [← h5, skipWhitespace_sig _ _ hd] at this
              simp at this
              exact hd' this.1
          · simp at h2
    · -- the loop of parse_array
      intro acc s v rest h
      simp only [Meojson.arrayLoop] at h
      have hh := skip_bind_ok h
      clear h
      obtain ⟨w, d, r, rfl, hw, hd, h⟩ := hh
      split at h
      · rename_i hj
        cases h
        exact ⟨⟨d, r, rfl, hd⟩, .inr ⟨hj.1, w, r, by rw [hj.2], rfl, hw, rfl⟩⟩
      · obtain ⟨val, cur, h1, h2⟩ := Res.bind_eq_ok.1 h
        obtain ⟨t, j, h3, h4, rfl⟩ := ih.value _ _ _ h1
        have hh := skip_bind_ok h2
        clear h2
        obtain ⟨w₂, e, r₂, rfl, hw₂, he, h2⟩ := hh
        rw [h3]
        split at h2
        · rename_i he'
          subst he'
          obtain ⟨hs, h5⟩ := ih.arrayLoop _ _ _ _ h2
          refine ⟨hs, .inl ?_⟩
          rcases h5 with ⟨ts, js, rfl, h6, rfl⟩ | ⟨hj, w₃, r₃, rfl, rfl, hw₃, rfl⟩
          · exact ⟨w ++ t ++ w₂ ++ 0x2c :: ts, j :: js, by simp, .cons hw h4 hw₂ h6, by simp [Doc.toValues]⟩
          · exact ⟨w ++ t ++ w₂ ++ 0x2c :: w₃, [j], by simp, .lastComma hj hw h4 hw₂ hw₃, by simp [Doc.toValues]⟩
        · cases h2
          exact ⟨⟨e, r₂, rfl, he⟩, .inl ⟨w ++ t ++ w₂, [j], by simp, .last hw h4 hw₂, by simp [Doc.toValues]⟩⟩
    · -- parse_object
      intro s v rest h
      cases s with
      | nil => simp [parseObject] at h
      | cons c s =>
        simp only [parseObject] at h
        split at h
        · simp at h
        rename_i hc
        have hc : c = 0x7b := by simpa using hc
        subst hc
        have hh := skip_bind_ok h
        clear h
        obtain ⟨w, d, r, rfl, hw, hd, h⟩ := hh
        split at h
        · rename_i hd'
          subst hd'
          cases h
          exact ⟨0x7b :: (w ++ [0x7d]), .obj [], by simp, .objEmpty hw,
            by simp [Doc.toValue, Doc.toMembers, Value.ofObject, sortMembers], rfl⟩
        · rename_i hd'
          obtain ⟨res, cur, h1, h2⟩ := Res.bind_eq_ok.1 h
          have h5 : ([] : List (Bytes × Value)) = sortMembers [] := by simp [sortMembers]
          rw [h5] at h1
          obtain ⟨⟨c', r', rfl, hc'⟩, h3⟩ := ih.objectLoop [] (by simp) _ _ _ h1
          rw [skipWhitespace_sig _ _ hc'] at h2
          simp only [Res.bind_ok, Bool.true_eq_false, if_false] at h2
          split at h2
          · rename_i hc''
            subst hc''
            cases h2
            rcases h3 with ⟨t, ms, h3, h4, hnd, rfl⟩ | ⟨_, w', r'', h4, h5, h6, rfl⟩
            · rw [h3]
              have h4' : LMembers (dialectOf cfg) (0x7d :: rest) (w ++ t) ms := by
                cases h4 with
                | last a b c d e f => have := LMembers.last (D := dialectOf cfg) (wsOf_append hw a) b c d e f; simpa using this
                | lastComma z a b c d e f g =>
                  have := LMembers.lastComma (D := dialectOf cfg) z (wsOf_append hw a) b c d e f g; simpa using this
                | cons a b c d e f g => have := LMembers.cons (D := dialectOf cfg) (wsOf_append hw a) b c d e f g; simpa using this
              exact ⟨0x7b :: ((w ++ t) ++ [0x7d]), .obj ms, by simp,
                .obj h4' (fun _ => by simpa [toMembers_keys] using hnd), by simp [Doc.toValue, Value.ofObject], rfl⟩
            · exfalso
              have := skipWhitespace_complete cfg.jsonc rest h6 (c := 0x7d) (sig_of (by simp))
              rw [← h5, skipWhitespace_sig _ _ hd] at this
              simp at this
              exact hd' this.1
          · simp at h2
    · -- the loop of parse_object
      intro acc hacc s v rest h
      simp only [Meojson.objectLoop] at h
      have hh := skip_bind_ok h
      clear h
      obtain ⟨w, d, r, rfl, hw, hd, h⟩ := hh
      split at h
      · rename_i hj
        cases h
        exact ⟨⟨d, r, rfl, hd⟩, .inr ⟨hj.1, w, r, by rw [hj.2], rfl, hw, rfl⟩⟩
      · obtain ⟨key, cur, h1, h2⟩ := Res.bind_eq_ok.1 h
        obtain ⟨kt, hkt, -⟩ := parseStdstring_sound ha h1
        have hL : parseStdstring cfg.accel (kt ++ cur) = .ok key cur := by rw [← hkt]; exact h1
        have hh := skip_bind_ok h2
        clear h2
        obtain ⟨w₂, e, r₂, rfl, hw₂, he, h2⟩ := hh
        split at h2
        · simp at h2
        rename_i hcolon
        have hcolon : e = 0x3a := by simpa using hcolon
        subst hcolon
        have hh := Res.bind_eq_ok.1 h2
        clear h2
        obtain ⟨more, cur, h3, h2⟩ := hh
        cases more with
        | false => simp at h2
        | true =>
          obtain ⟨w₃, f, r₃, rfl, rfl, hw₃, hf⟩ := skipWhitespace_true h3
          simp only [Bool.true_eq_false, if_false] at h2
          have hh := Res.bind_eq_ok.1 h2
          clear h2
          obtain ⟨val, cur, h4, h2⟩ := hh
          obtain ⟨t, j, h5, h6, rfl⟩ := ih.value _ _ _ h4
          have hh := Res.bind_eq_ok.1 h2
          clear h2
          obtain ⟨more, cur₂, h7, h2⟩ := hh
          cases more with
          | false => simp at h2
          | true =>
            obtain ⟨w₄, g, r₄, rfl, rfl, hw₄, hg⟩ := skipWhitespace_true h7
            simp only [Bool.true_eq_false, if_false] at h2
            split at h2
            · simp at h2
            rename_i hnew
            have hnd := emplace_nodup hacc (by simpa using hnew)
            rw [emplace_sortMembers hnd] at h2
            simp only at h2
            rw [hkt, h5]
            rw [h5] at hL
            split at h2
            · rename_i hg'
              subst hg'
              obtain ⟨hs, h8⟩ := ih.objectLoop _ hnd _ _ _ h2
              refine ⟨hs, .inl ?_⟩
              rcases h8 with ⟨ts, ms, rfl, h9, hnd', rfl⟩ | ⟨hj, w₅, r₅, rfl, rfl, hw₅, rfl⟩
              · exact ⟨w ++ kt ++ w₂ ++ 0x3a :: (w₃ ++ t ++ w₄ ++ 0x2c :: ts), (key, j) :: ms, by simp,
                  .cons hw hL hw₂ hw₃ h6 hw₄ h9, by simpa [Doc.toMembers] using hnd', by simp [Doc.toMembers]⟩
              · exact ⟨w ++ kt ++ w₂ ++ 0x3a :: (w₃ ++ t ++ w₄ ++ 0x2c :: w₅), [(key, j)], by simp,
                  .lastComma hj hw hL hw₂ hw₃ h6 hw₄ hw₅, by simpa [Doc.toMembers] using hnd, by simp [Doc.toMembers]⟩
            · cases h2
              exact ⟨⟨g, r₄, rfl, hg⟩, .inl ⟨w ++ kt ++ w₂ ++ 0x3a :: (w₃ ++ t ++ w₄), [(key, j)], by simp,
                .last hw hL hw₂ hw₃ h6 hw₄, by simpa [Doc.toMembers] using hnd, by simp [Doc.toMembers]⟩⟩

/-- Soundness at the root. -/
theorem parseRun_sound {cfg : Cfg} (ha : AccelOk cfg.accel) {n : Nat} {s rest : Bytes} {v : Value}
    (h : parseRun cfg n s = .ok v rest) :
    ∃ w₁ t w₂ r j, s = w₁ ++ t ++ w₂ ++ r ∧ wsOf cfg.jsonc w₁ ∧ LVal (dialectOf cfg) (w₂ ++ r) t j ∧ wsOf cfg.jsonc w₂ ∧
      Stop cfg.jsonc r ∧ j.isContainer = true ∧ v = j.toValue := by
  unfold parseRun at h
  have hh := skip_bind_ok h
  clear h
  obtain ⟨w₁, c, r, rfl, hw₁, hc, h⟩ := hh
  obtain ⟨v', cur, h1, h2⟩ := Res.bind_eq_ok.1 h
  have h3 : ∃ t j, c :: r = t ++ cur ∧ LVal (dialectOf cfg) cur t j ∧ v' = j.toValue ∧ j.isContainer = true := by
    split at h1
    · exact (soundAt ha n).array _ _ _ h1
    split at h1
    · exact (soundAt ha n).object _ _ _ h1
    · simp at h1
  obtain ⟨t, j, h3, h4, rfl, h5⟩ := h3
  obtain ⟨more, cur', h6, h7⟩ := Res.bind_eq_ok.1 h2
  cases more with
  | true => simp at h7
  | false =>
    simp at h7
    obtain ⟨w₂, r', rfl, hw₂, hr'⟩ := skipWhitespace_false h6
    exact ⟨w₁, t, w₂, r', j, by rw [h3]; simp, hw₁, h4, hw₂, hr', h5, h7.1.symm⟩

/-! ### Safety and fuel -/

/-- The call returned. -/
def Res.Returns {α : Type} (r : Res α) : Prop := r = .fail ∨ ∃ a rest, r = .ok a rest

theorem Res.returns_ok {α : Type} (a : α) (rest : Bytes) : (Res.ok a rest).Returns := .inr ⟨a, rest, rfl⟩
theorem Res.returns_fail {α : Type} : (Res.fail : Res α).Returns := .inl rfl

theorem Res.returns_bind {α β : Type} {r : Res α} {f : α → Bytes → Res β} (hr : r.Returns)
    (hf : ∀ a s, r = .ok a s → (f a s).Returns) : (r.bind f).Returns := by
  rcases hr with rfl | ⟨a, s, rfl⟩
  · exact .inl rfl
  · exact hf a s rfl

theorem skip_bind_returns {α : Type} {j : Bool} {s : Bytes} {f : UInt8 → Bytes → Res α} {g : Res α}
    (hf : ∀ w c r, s = w ++ c :: r → Sig c → (f c r).Returns) :
    ((skipWhitespace j s).bind fun more cur =>
      if more = false then .fail else match cur with | [] => g | c :: r => f c r).Returns := by
  rcases skipWhitespace_sound j s with ⟨w, c, r, e1, e2, e3, e4⟩ | ⟨w, r, rest, e1, e2, e3, e4⟩
  · rw [e4]; simpa using hf w c r e1 e3
  · rw [e4]; simp [Res.returns_fail]

theorem matchLiteral_returns (l s : Bytes) : (matchLiteral l s).Returns := by
  induction l generalizing s with
  | nil => exact Res.returns_ok _ _
  | cons c l ih =>
    cases s with
    | nil => exact Res.returns_fail
    | cons d s =>
      simp only [matchLiteral]
      split
      · exact ih s
      · exact Res.returns_fail

structure ReturnsAt (cfg : Cfg) (n : Nat) : Prop where
  value : ∀ s, s ≠ [] → 3 * s.length ≤ n → (parseValue cfg n s).Returns
  array : ∀ s, s ≠ [] → 3 * s.length ≤ n + 1 → (parseArray cfg n s).Returns
  arrayLoop : ∀ acc s, 3 * s.length + 1 ≤ n → (arrayLoop cfg n acc s).Returns
  object : ∀ s, s ≠ [] → 3 * s.length ≤ n + 1 → (parseObject cfg n s).Returns
  objectLoop : ∀ acc s, 3 * s.length + 1 ≤ n → (objectLoop cfg n acc s).Returns

theorem returnsAt {cfg : Cfg} (ha : AccelOk cfg.accel) (n : Nat) : ReturnsAt cfg n := by
  induction n with
  | zero =>
    constructor
    · intro s hs h; cases s with
      | nil => exact absurd rfl hs
      | cons c s => simp at h
    · intro s hs h; cases s with
      | nil => exact absurd rfl hs
      | cons c s => simp at h; omega
    · intro acc s h; omega
    · intro s hs h; cases s with
      | nil => exact absurd rfl hs
      | cons c s => simp at h; omega
    · intro acc s h; omega
  | succ n ih =>
    constructor
    · intro s hs hn
      cases s with
      | nil => exact absurd rfl hs
      | cons c s =>
        simp only [parseValue]
        split
        · exact Res.returns_bind (matchLiteral_returns _ _) fun _ _ _ => Res.returns_ok _ _
        split
        · simp only [parseBoolean]
          split
          · exact Res.returns_bind (matchLiteral_returns _ _) fun _ _ _ => Res.returns_ok _ _
          split
          · exact Res.returns_bind (matchLiteral_returns _ _) fun _ _ _ => Res.returns_ok _ _
          · exact Res.returns_fail
        split
        · exact parseNumber_safe c s
        split
        · exact Res.returns_bind (parseStdstring_safe ha hs) fun _ _ _ => Res.returns_ok _ _
        split
        · exact ih.array _ hs hn
        split
        · exact ih.object _ hs hn
        · exact Res.returns_fail
    · intro s hs hn
      cases s with
      | nil => exact absurd rfl hs
      | cons c s =>
        simp only [List.length_cons] at hn
        simp only [parseArray]
        split
        · exact Res.returns_fail
        · refine skip_bind_returns ?_
          intro w d r hwr hd
          split
          · exact Res.returns_ok _ _
          · refine Res.returns_bind (ih.arrayLoop _ _ ?_) ?_
            · have := congrArg List.length hwr
              simp only [List.length_append, List.length_cons] at this ⊢
              omega
            · intro res cur h
              refine skip_bind_returns ?_
              intro w' d' r' _ _
              split
              · exact Res.returns_ok _ _
              · exact Res.returns_fail
    · intro acc s hn
      simp only [Meojson.arrayLoop]
      refine skip_bind_returns ?_
      intro w d r hwr hd
      have hlen := congrArg List.length hwr
      simp only [List.length_append, List.length_cons] at hlen
      split
      · exact Res.returns_ok _ _
      · refine Res.returns_bind (ih.value _ (by simp) (by simp only [List.length_cons]; omega)) ?_
        intro val cur h1
        obtain ⟨t, j, h3, h4, -⟩ := (soundAt ha n).value _ _ _ h1
        have hlen2 := congrArg List.length h3
        simp only [List.length_append, List.length_cons] at hlen2
        refine skip_bind_returns ?_
        intro w' d' r' hwr' hd'
        have hlen3 := congrArg List.length hwr'
        simp only [List.length_append, List.length_cons] at hlen3
        split
        · exact ih.arrayLoop _ _ (by omega)
        · exact Res.returns_ok _ _
    · intro s hs hn
      cases s with
      | nil => exact absurd rfl hs
      | cons c s =>
        simp only [List.length_cons] at hn
        simp only [parseObject]
        split
        · exact Res.returns_fail
        · refine skip_bind_returns ?_
          intro w d r hwr hd
          split
          · exact Res.returns_ok _ _
          · refine Res.returns_bind (ih.objectLoop _ _ ?_) ?_
            · have := congrArg List.length hwr
              simp only [List.length_append, List.length_cons] at this ⊢
              omega
            · intro res cur h
              refine skip_bind_returns ?_
              intro w' d' r' _ _
              split
              · exact Res.returns_ok _ _
              · exact Res.returns_fail
    · intro acc s hn
      simp only [Meojson.objectLoop]
      refine skip_bind_returns ?_
      intro w d r hwr hd
      have hlen := congrArg List.length hwr
      simp only [List.length_append, List.length_cons] at hlen
      split
      · exact Res.returns_ok _ _
      · refine Res.returns_bind (parseStdstring_safe ha (by simp)) ?_
        intro key cur h1
        obtain ⟨kt, hkt, -⟩ := parseStdstring_sound ha h1
        have hlen2 := congrArg List.length hkt
        simp only [List.length_append, List.length_cons] at hlen2
        refine skip_bind_returns ?_
        intro w₂ e r₂ hwr₂ he
        have hlen3 := congrArg List.length hwr₂
        simp only [List.length_append, List.length_cons] at hlen3
        split
        · exact Res.returns_fail
        rcases skipWhitespace_sound cfg.jsonc r₂ with ⟨w₃, f, r₃, e1, e2, e3, e4⟩ | ⟨w₃, r₃, rest, e1, e2, e3, e4⟩
        · rw [e4]
          have hlen4 := congrArg List.length e1
          simp only [List.length_append, List.length_cons] at hlen4
          simp only [Res.bind_ok, Bool.true_eq_false, if_false]
          refine Res.returns_bind (ih.value _ (by simp) (by simp only [List.length_cons]; omega)) ?_
          intro val cur₄ h4
          obtain ⟨t, j, h5, -, -⟩ := (soundAt ha n).value _ _ _ h4
          have hlen5 := congrArg List.length h5
          simp only [List.length_append, List.length_cons] at hlen5
          rcases skipWhitespace_sound cfg.jsonc cur₄ with ⟨w₄, g, r₄, f1, f2, f3, f4⟩ | ⟨w₄, r₄, rest, f1, f2, f3, f4⟩
          · rw [f4]
            have hlen6 := congrArg List.length f1
            simp only [List.length_append, List.length_cons] at hlen6
            simp only [Res.bind_ok, Bool.true_eq_false, if_false]
            split
            · exact Res.returns_fail
            split
            · exact ih.objectLoop _ _ (by omega)
            · exact Res.returns_ok _ _
          · rw [f4]; simp [Res.returns_fail]
        · rw [e4]; simp [Res.returns_fail]

/-- With enough fuel the parser returns: it neither runs past the end of the text nor loops. -/
theorem parseRun_returns {cfg : Cfg} (ha : AccelOk cfg.accel) {n : Nat} {s : Bytes} (hn : 3 * s.length ≤ n + 1) :
    (parseRun cfg n s).Returns := by
  unfold parseRun
  refine skip_bind_returns ?_
  intro w c r hwr hc
  have hlen := congrArg List.length hwr
  simp only [List.length_append, List.length_cons] at hlen
  refine Res.returns_bind ?_ ?_
  · split
    · exact (returnsAt ha n).array _ (by simp) (by simp only [List.length_cons]; omega)
    split
    · exact (returnsAt ha n).object _ (by simp) (by simp only [List.length_cons]; omega)
    · exact Res.returns_fail
  · intro v cur _
    rcases skipWhitespace_sound cfg.jsonc cur with ⟨w, c, r, e1, e2, e3, e4⟩ | ⟨w, r, rest, e1, e2, e3, e4⟩
    · rw [e4]; simp [Res.returns_fail]
    · rw [e4]; simp [Res.returns_ok]

/-! ### More fuel changes nothing -/

/-- `r'` is `r`, unless `r` ran out of fuel. -/
def Res.Le {α : Type} (r r' : Res α) : Prop := r = .timeout ∨ r = r'

theorem Res.Le.refl {α : Type} (r : Res α) : r.Le r := .inr rfl

theorem Res.Le.bind {α β : Type} {r r' : Res α} {f f' : α → Bytes → Res β} (hr : r.Le r')
    (hf : ∀ a s, (f a s).Le (f' a s)) : (r.bind f).Le (r'.bind f') := by
  rcases hr with rfl | rfl
  · exact .inl rfl
  · cases r with
    | ok a s => exact hf a s
    | fail => exact .refl _
    | ub => exact .refl _
    | timeout => exact .refl _

structure FuelAt (cfg : Cfg) (n : Nat) : Prop where
  value : ∀ s, (parseValue cfg n s).Le (parseValue cfg (n + 1) s)
  array : ∀ s, (parseArray cfg n s).Le (parseArray cfg (n + 1) s)
  arrayLoop : ∀ acc s, (arrayLoop cfg n acc s).Le (arrayLoop cfg (n + 1) acc s)
  object : ∀ s, (parseObject cfg n s).Le (parseObject cfg (n + 1) s)
  objectLoop : ∀ acc s, (objectLoop cfg n acc s).Le (objectLoop cfg (n + 1) acc s)

theorem fuelAt (cfg : Cfg) (n : Nat) : FuelAt cfg n := by
  induction n with
  | zero => constructor <;> intros <;> left <;> simp only [parseValue, parseArray, Meojson.arrayLoop, parseObject, Meojson.objectLoop]
  | succ n ih =>
    constructor
    · intro s
      cases s with
      | nil => simp only [parseValue]; exact .refl _
      | cons c s =>
        simp only [parseValue]
        split
        · exact .refl _
        split
        · exact .refl _
        split
        · exact .refl _
        split
        · exact .refl _
        split
        · exact ih.array _
        split
        · exact ih.object _
        · exact .refl _
    · intro s
      cases s with
      | nil => simp only [parseArray]; exact .refl _
      | cons c s =>
        simp only [parseArray]
        split
        · exact .refl _
        · refine .bind (.refl _) fun more cur => ?_
          split
          · exact .refl _
          · cases cur with
            | nil => exact .refl _
            | cons d cur =>
              simp only
              split
              · exact .refl _
              · exact .bind (ih.arrayLoop _ _) fun _ _ => .refl _
    · intro acc s
      unfold Meojson.arrayLoop
      refine .bind (.refl _) fun more cur => ?_
      split
      · exact .refl _
      · cases cur with
        | nil => exact .refl _
        | cons d cur =>
          simp only
          split
          · exact .refl _
          · refine .bind (ih.value _) fun v cur => .bind (.refl _) fun more cur => ?_
            split
            · exact .refl _
            · cases cur with
              | nil => exact .refl _
              | cons e cur =>
                simp only
                split
                · exact ih.arrayLoop _ _
                · exact .refl _
    · intro s
      cases s with
      | nil => simp only [parseObject]; exact .refl _
      | cons c s =>
        simp only [parseObject]
        split
        · exact .refl _
        · refine .bind (.refl _) fun more cur => ?_
          split
          · exact .refl _
          · cases cur with
            | nil => exact .refl _
            | cons d cur =>
              simp only
              split
              · exact .refl _
              · exact .bind (ih.objectLoop _ _) fun _ _ => .refl _
    · intro acc s
      unfold Meojson.objectLoop
      refine .bind (.refl _) fun more cur => ?_
      split
      · exact .refl _
      · cases cur with
        | nil => exact .refl _
        | cons d cur =>
          simp only
          split
          · exact .refl _
          · refine .bind (.refl _) fun key cur => .bind (.refl _) fun more cur => ?_
            split
            · exact .refl _
            · cases cur with
              | nil => exact .refl _
              | cons e cur =>
                simp only
                split
                · exact .refl _
                · refine .bind (.refl _) fun more cur => ?_
                  split
                  · exact .refl _
                  · refine .bind (ih.value _) fun v cur => .bind (.refl _) fun more cur => ?_
                    split
                    · exact .refl _
                    · split
                      · exact .refl _
                      · cases cur with
                        | nil => exact .refl _
                        | cons f cur =>
                          simp only
                          split
                          · exact ih.objectLoop _ _
                          · exact .refl _

theorem parseRun_fuel_succ (cfg : Cfg) (n : Nat) (s : Bytes) : (parseRun cfg n s).Le (parseRun cfg (n + 1) s) := by
  unfold parseRun
  refine .bind (.refl _) fun more cur => ?_
  split
  · exact .refl _
  · cases cur with
    | nil => exact .refl _
    | cons c cur =>
      simp only
      refine .bind ?_ fun _ _ => .refl _
      split
      · exact (fuelAt cfg n).array _
      split
      · exact (fuelAt cfg n).object _
      · exact .refl _

/-- All sufficient amounts of fuel give the same result. -/
theorem parseRun_fuel {cfg : Cfg} (ha : AccelOk cfg.accel) {n m : Nat} {s : Bytes} (hn : 3 * s.length ≤ n + 1) (hm : n ≤ m) :
    parseRun cfg m s = parseRun cfg n s := by
  induction hm with
  | refl => rfl
  | @step m hm ih =>
    rcases parseRun_fuel_succ cfg m s with h | h
    · rw [ih] at h
      rcases parseRun_returns ha hn with h' | ⟨_, _, h'⟩ <;> simp [h] at h'
    · rw [← h, ih]

end Meojson
