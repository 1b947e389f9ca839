import Verif.Model.Ostream
import Verif.Props.Serialize

/-!
# C80: what is printed to a stream can be parsed
-/

set_option autoImplicit false

namespace Meojson
open Spec Value

/-- What `os << v` appends to the stream is read back by `parse` as `v`. -/
def C80Claim : Prop :=
  ∀ (a : Accel) (os : Ostream) (v : Value), os.good = true → v.Json → v.IsContainer →
    ∃ os' x, os.value v = .ok os' ∧ os'.written = os.written ++ x ∧ parse a.traits x = some v

/-! ### What is written -/

/-- Any value that has a text, a scalar as well: the text appears once, unbroken, with nothing but fill characters on one side, as many as are missing up to the width. The width is 0 then,
and nothing else about the stream has changed. -/
theorem C80_written (os : Ostream) (v : Value) (t : Bytes) (ht : v.dumps (some 4) = .ok t) (hg : os.good = true) :
    ∃ os' p, os.value v = .ok os' ∧ os'.written = os.written ++ (if os.left then t ++ p else p ++ t) ∧ (∀ c ∈ p, c = os.fill) ∧
      (p.length : Int) = max 0 (os.width - t.length) ∧ os'.width = 0 ∧ os'.good = true ∧ os'.fill = os.fill ∧ os'.left = os.left := by
  have ht' : v.stream = .ok t := ht
  refine ⟨os.put t, os.pad t, by simp [Ostream.value, ht'], by simp [Ostream.put, hg], ?_, ?_, ?_⟩
  · intro c hc
    exact (List.mem_replicate.1 hc).2
  · simp only [Ostream.pad, List.length_replicate]; omega
  · simp [Ostream.put, hg]

example : (∃ t, Samples.value.dumps (some 4) = .ok t) ∧ ({} : Ostream).good = true := ⟨(dumps_spells Samples.value_json _).imp fun _ h => h.1, rfl⟩

/-- A stream that is not good is left alone; a value without a text leaves every stream alone, by an exception. -/
theorem C80_untouched (os : Ostream) (v : Value) :
    (os.good = false → (∃ t, v.dumps (some 4) = .ok t) → os.value v = .ok os) ∧
    (∀ e, v.dumps (some 4) = .throw e → os.value v = .throw e) := by
  constructor
  · rintro hg ⟨t, ht⟩
    have ht' : v.stream = .ok t := ht
    simp [Ostream.value, ht', Ostream.put, hg]
  · intro e ht
    have ht' : v.stream = .throw e := ht
    simp [Ostream.value, ht']

example : ({ good := false } : Ostream).good = false ∧ (∃ t, Value.null.dumps (some 4) = .ok t) ∧ (Value.str .invalid []).dumps (some 4) = .throw .json :=
  ⟨rfl, ⟨_, rfl⟩, rfl⟩

/-- The width is for one value: what is printed next is not padded. -/
theorem C80_once (os : Ostream) (v w : Value) (t u : Bytes) (hv : v.dumps (some 4) = .ok t) (hw : w.dumps (some 4) = .ok u) (hg : os.good = true) :
    ∃ os' os'', os.value v = .ok os' ∧ os'.value w = .ok os'' ∧ os''.written = os'.written ++ u := by
  obtain ⟨os', p, h1, -, -, -, h2, h3, -⟩ := C80_written os v t hv hg
  obtain ⟨os'', q, h4, h5, -, h6, -⟩ := C80_written os' w u hw h3
  have : q = [] := List.length_eq_zero_iff.1 (by omega)
  subst this
  exact ⟨os', os'', h1, h4, by rw [h5]; split <;> simp⟩

example : (∃ t, Samples.value.dumps (some 4) = .ok t) ∧ ({ width := 10 } : Ostream).good = true := ⟨(dumps_spells Samples.value_json _).imp fun _ h => h.1, rfl⟩

/-- An array or an object prints what the value holding it prints. -/
theorem C80_same (os : Ostream) (vs : List Value) (ms : List (Bytes × Value)) :
    os.array vs = os.value (.arr .array vs) ∧ os.object ms = os.value (.obj .object ms) := by
  constructor
  · simp only [Ostream.array, Ostream.value, Value.stream, Value.formatTo, Value.arrStream, Value.arrFormat]
  · simp only [Ostream.object, Ostream.value, Value.stream, Value.formatTo, Value.objStream, Value.objFormat]

/-! ### What is read -/

private theorem root_head {D : Dialect} {t : Text} {j : Doc} (h : Val D t j) (hj : j.isContainer = true) : ∃ c y, t = c :: y ∧ (c = 0x5b ∨ c = 0x7b) := by
  cases h <;> first | (simp [Doc.isContainer] at hj; done) | exact ⟨_, _, rfl, by simp⟩

private theorem wsOf_head {k : Bool} {c : UInt8} {w : Text} (h : wsOf k (c :: w)) : WsChar c ∨ (k = true ∧ c = 0x2f) := by
  cases k with
  | false => exact .inl (h c (by simp))
  | true =>
    have h' : WsC (c :: w) := h
    generalize e : c :: w = x at h'
    cases h' with
    | nil => simp at e
    | char h1 _ => simp at e; exact .inl (e.1 ▸ h1)
    | comment h1 _ =>
      cases h1 <;> simp at e <;> exact .inr ⟨rfl, e.1⟩

/-- Opening brackets in front of a document are a document that was cut off. -/
private theorem wrapped {t : Text} {j : Doc} (h : Val rfc8259 t j) : ∀ n : Nat, ∃ j', Val rfc8259 (List.replicate (n + 1) 0x5b ++ t ++ List.replicate (n + 1) 0x5d) j' ∧ j'.isContainer = true
  | 0 => ⟨.arr [j], by simpa using Val.arr (.last (w₁ := []) (w₂ := []) ws_nil h ws_nil), rfl⟩
  | n + 1 => by
    obtain ⟨j', h', -⟩ := wrapped h n
    refine ⟨.arr [j'], ?_, rfl⟩
    have := Val.arr (.last (w₁ := []) (w₂ := []) ws_nil h' ws_nil)
    rw [List.replicate_succ (n := n + 1), List.replicate_succ' (n := n + 1)]
    simpa using this

/-- Text in front of a document that is neither white space nor a comment. -/
private theorem front_none (a : Accel) (k : Bool) {t : Text} {j : Doc} (h : Val rfc8259 t j) (hj : j.isContainer = true) (c : UInt8) (n : Nat) (hc : ¬ WsChar c)
    (hk : k = true → c ≠ 0x2f) : parser ⟨k, a.traits⟩ (List.replicate (n + 1) c ++ t) = none := by
  cases he : parser ⟨k, a.traits⟩ (List.replicate (n + 1) c ++ t) with
  | none => rfl
  | some w =>
    exfalso
    obtain ⟨j', h3, -⟩ := parser_sound (cfg := ⟨k, a.traits⟩) (accelOk a) he
    have h3' := h3
    obtain ⟨t', r, ⟨hj', w₁, b, w₂, hw₁, hb, hw₂, rfl⟩, -, e⟩ := h3
    have hL := lexical_lenient k a.traits.isSome
    obtain ⟨c', y, rfl, hc'⟩ := root_head hb hj'
    cases w₁ with
    | cons d w₁ =>
      have := wsOf_head hw₁
      simp [List.replicate_succ] at e
      rw [← e.1] at this
      rcases this with h | ⟨h1, h2⟩
      · exact hc h
      · exact hk h1 h2
    | nil =>
      simp [List.replicate_succ] at e
      obtain ⟨rfl, e⟩ := e
      rcases hc' with rfl | rfl
      · obtain ⟨j'', h4, h5⟩ := wrapped h n
        exact truncated_not_read h4 h5 rfl (by simp) h3'
      · obtain ⟨c₂, x, hx, hc₂⟩ : ∃ c₂ x, List.replicate n 0x7b ++ t = c₂ :: x ∧ (c₂ = 0x5b ∨ c₂ = 0x7b) := by
          cases n with
          | zero => simpa using root_head h hj
          | succ n => exact ⟨_, _, rfl, .inr rfl⟩
        rw [hx] at e
        have hsig : Sig c₂ := by rcases hc₂ with rfl | rfl <;> (unfold Sig WsChar; decide)
        generalize hb' : (0x7b : UInt8) :: y = b at hb
        cases hb with
        | null => simp at hb'
        | true => simp at hb'
        | false => simp at hb'
        | num h => simp [Doc.isContainer] at hj'
        | str h => simp [Doc.isContainer] at hj'
        | arrEmpty => simp at hb'
        | arr => simp at hb'
        | objEmpty hw =>
          simp at hb'; subst hb'
          have := (ws_det (w := []) (x := x) (c' := 0x7d) (wsOf_nil k) hw hsig (sig_of (by simp)) (by simpa using e)).2.1
          subst this; revert hc₂; decide
        | obj hm =>
          simp at hb'; subst hb'
          obtain ⟨w, z, rfl, hw⟩ := members_head hL hm
          have := (ws_det (w := []) (x := x) (c' := 0x22) (wsOf_nil k) hw hsig (sig_of (by simp)) (by simpa using e)).2.1
          subst this; revert hc₂; decide

/-- Text behind a document that the reader would look at. -/
private theorem behind_none (a : Accel) (k : Bool) {t : Text} {j : Doc} (h : Val rfc8259 t j) (hj : j.isContainer = true) (c : UInt8) (p : Text) (hc : Sig c) :
    parser ⟨k, a.traits⟩ (t ++ c :: p) = none := by
  cases he : parser ⟨k, a.traits⟩ (t ++ c :: p) with
  | none => rfl
  | some w =>
    exfalso
    obtain ⟨j', ⟨t', r, ⟨hj', w₁, b, w₂, hw₁, hb, hw₂, rfl⟩, hr, e⟩, -⟩ := parser_sound (cfg := ⟨k, a.traits⟩) (accelOk a) he
    have h' : Val (lenient k a.traits.isSome) t j :=
      val_mono (D := rfc8259) (D' := lenient k a.traits.isSome) (fun _ h => ws_wsOf k h) (by simp [rfc8259]) (fun h => h) h fun _ _ _ h => str_lenient h
    have hL := lexical_lenient k a.traits.isSome
    obtain ⟨c₀, y, rfl, hc₀⟩ := root_head h hj
    obtain ⟨c₁, y₁, rfl, hc₁⟩ := val_sig hL hb
    have hsig : Sig c₀ := by rcases hc₀ with rfl | rfl <;> (unfold Sig WsChar; decide)
    obtain ⟨rfl, rfl, e1⟩ := ws_det (w := []) (x := y ++ c :: p) (x' := y₁ ++ (w₂ ++ r)) (wsOf_nil k) hw₁ hsig hc₁.1 (by simpa using e)
    obtain ⟨e2, -⟩ := val_det hL h' _ _ (c :: p) (w₂ ++ r) hb (by simp [e1]) (.inl hj) (.inl hj')
    simp only [List.cons.injEq, true_and] at e2
    subst e2
    have e3 := List.append_cancel_left e1
    obtain ⟨h1, h2, h3⟩ := hc
    cases w₂ with
    | cons d w₂ =>
      simp at e3
      have := wsOf_head hw₂
      rw [← e3.1] at this
      rcases this with h | ⟨-, h⟩
      · exact h1 h
      · exact h2 h
    | nil =>
      simp at e3
      cases hr <;> simp at e3
      · exact h3 e3.1
      all_goals exact h2 e3.1

/-- What follows a document inside a larger one is something the reader looks at. -/
private theorem inside_false {r z : Text} {c : UInt8} (hr : Stop true r) (hc : Sig c) :
    ∀ {w w' : Text}, Ws w → WsC w' → w ++ c :: z = w' ++ r → False := by
  have stop : ∀ (d : UInt8) (x : Text), d ≠ 0x2f → d ≠ 0x00 → d :: x = r → False := by
    intro d x h1 h2 e
    cases hr <;> simp at e <;> first | exact h2 e.1 | exact h1 e.1
  intro w
  induction w with
  | nil =>
    intro w' _ hw' e
    cases hw' with
    | nil => exact stop c z hc.2.1 hc.2.2 (by simpa using e)
    | char h3 h4 => simp at e; exact hc.1 (e.1 ▸ h3)
    | comment h3 h4 => cases h3 <;> simp at e <;> exact hc.2.1 e.1
  | cons d w ih =>
    intro w' hw hw' e
    have hd : WsChar d := hw d (by simp)
    have h1 : d ≠ 0x2f := by rintro rfl; revert hd; unfold WsChar; decide
    have h2 : d ≠ 0x00 := by rintro rfl; revert hd; unfold WsChar; decide
    cases hw' with
    | nil => exact stop d _ h1 h2 (by simpa using e)
    | char h3 h4 => simp at e; exact ih (fun y hy => hw y (by simp [hy])) h4 e.2
    | comment h3 h4 => cases h3 <;> simp at e <;> exact h1 e.1

private theorem before_newline : ∀ {x y u v : Text}, 0x0a ∉ x → 0x0a ∉ y → x ++ 0x0a :: u = y ++ 0x0a :: v → u = v
  | [], [], _, _, _, _, e => by simpa using e
  | [], _ :: _, _, _, _, h, e => by simp at e; exact absurd e.1 (by rintro rfl; simp at h)
  | _ :: _, [], _, _, h, _, e => by simp at e; exact absurd e.1.symm (by rintro rfl; simp at h)
  | _ :: _, _ :: _, _, _, h, h', e => by
    simp at e h h'
    exact before_newline h.2 h'.2 e.2

/-- Slashes in front of a document that goes on in a second line: a comment up to there, and what is left is no document. -/
private theorem slash_none (a : Accel) {t t' : Text} {j : Doc} {c₀ : UInt8} (h : Val rfc8259 t j) (hj : j.isContainer = true) (ht : t = c₀ :: 0x0a :: t') (n : Nat) :
    parser ⟨true, a.traits⟩ (List.replicate (n + 1) 0x2f ++ t) = none := by
  cases he : parser ⟨true, a.traits⟩ (List.replicate (n + 1) 0x2f ++ t) with
  | none => rfl
  | some v =>
    exfalso
    obtain ⟨j', ⟨-, r, ⟨hj', w₁, b, w₂, hw₁, hb, hw₂, rfl⟩, hr, e⟩, -⟩ := parser_sound (cfg := ⟨true, a.traits⟩) (accelOk a) he
    have hL := lexical_lenient true a.traits.isSome
    have hw₁' : WsC w₁ := hw₁
    have hw₂' : WsC w₂ := hw₂
    obtain ⟨c, y, rfl, hc⟩ := root_head hb hj'
    obtain ⟨c', y', hc', hc₀⟩ := root_head h hj
    rw [ht] at hc'
    simp at hc'
    obtain ⟨rfl, -⟩ := hc'
    have hsig : Sig c := by rcases hc with rfl | rfl <;> (unfold Sig WsChar; decide)
    have hne : c₀ ≠ 0x2f := by rcases hc₀ with rfl | rfl <;> decide
    have hnl : c₀ ≠ 0x0a := by rcases hc₀ with rfl | rfl <;> decide
    subst ht
    -- the comment
    obtain ⟨w, hw, e⟩ : ∃ w, WsC w ∧ t' = w ++ c :: (y ++ (w₂ ++ r)) := by
      cases hw₁' with
      | nil => simp [List.replicate_succ] at e; exact absurd e.1.symm hsig.2.1
      | char h1 _ => simp [List.replicate_succ] at e; rw [← e.1] at h1; exfalso; revert h1; unfold WsChar; decide
      | comment h1 h2 =>
        cases h1 with
        | block _ =>
          cases n with
          | zero => simp [List.replicate_succ] at e; rw [e.1] at hc₀; exfalso; revert hc₀; decide
          | succ n => simp [List.replicate_succ] at e
        | @line b₀ h3 =>
          cases n with
          | zero => simp [List.replicate_succ] at e; exact absurd e.1 hne
          | succ n =>
            refine ⟨_, h2, before_newline (x := List.replicate n 0x2f ++ [c₀]) (y := b₀) ?_ h3 ?_⟩
            · simp [List.mem_replicate, Ne.symm hnl]
            · simpa [List.replicate_succ] using e
    clear he
    generalize hx : c₀ :: 0x0a :: t' = x at h
    have peel : ∀ {u v : Text} {d : UInt8}, Ws u → d ≠ 0x0a → (0x0a : UInt8) :: t' = u ++ d :: v → ∃ u', Ws u' ∧ t' = u' ++ d :: v := by
      intro u v d hu hd e
      cases u with
      | nil => simp at e; exact absurd e.1.symm hd
      | cons f u => simp at e; exact ⟨u, fun q hq => hu q (by simp [hq]), e.2⟩
    have first : ∀ {u v : Text} {d : UInt8}, Ws u → Sig d → (0x0a : UInt8) :: t' = u ++ d :: v → c = d ∧ y ++ (w₂ ++ r) = v := by
      intro u v d hu hd e1
      obtain ⟨u', hu', e2⟩ := peel hu (by rintro rfl; exact hd.1 (by unfold WsChar; decide)) e1
      exact (ws_det (j := true) (w := w) (w' := u') hw (ws_wsOf true hu') hsig hd (e.symm.trans e2)).2
    have elem : ∀ {u f q z : Text} {i : Doc} {d : UInt8}, Ws u → Val rfc8259 f i → Ws q → Sig d → (0x0a : UInt8) :: t' = u ++ f ++ q ++ d :: z → False := by
      intro u f q z i d hu hf hq hd e1
      obtain ⟨c₂, f', rfl, hc₂⟩ := val_headOf (lexical_rfc true) hf
      obtain ⟨c₃, f'', e3, hc₃⟩ := val_sig (lexical_rfc true) hf
      simp at e3
      obtain ⟨rfl, rfl⟩ := e3
      obtain ⟨rfl, e4⟩ := first (v := f' ++ (q ++ d :: z)) hu hc₃.1 (by simpa using e1)
      have hi : i.isContainer = true := by
        cases i <;> simp [Doc.isContainer]
        all_goals first
          | (simp only [HeadOf] at hc₂; rcases hc with rfl | rfl <;> revert hc₂ <;> first | decide | (unfold Digit; decide))
          | (rename_i b; cases b <;> simp only [HeadOf] at hc₂ <;> subst hc₂ <;> revert hc <;> decide)
      have hf' : Val (lenient true a.traits.isSome) (c :: f') i :=
        val_mono (D := rfc8259) (D' := lenient true a.traits.isSome) (fun _ h => ws_wsOf true h) (by simp [rfc8259]) (fun h => h) hf fun _ _ _ h => str_lenient h
      obtain ⟨e5, -⟩ := val_det hL hf' _ _ (q ++ d :: z) (w₂ ++ r) hb (by simp [e4]) (.inl hi) (.inl hj')
      simp at e5
      subst e5
      exact inside_false hr hd hq hw₂' (List.append_cancel_left e4).symm
    have comma : Sig 0x2c := sig_of (by simp)
    have close : Sig 0x5d := sig_of (by simp)
    cases h with
    | null => simp [Doc.isContainer] at hj
    | true => simp [Doc.isContainer] at hj
    | false => simp [Doc.isContainer] at hj
    | num h => simp [Doc.isContainer] at hj
    | str h => simp [Doc.isContainer] at hj
    | arrEmpty h1 =>
      simp at hx
      obtain ⟨rfl, -⟩ := first h1 close hx.2
      revert hc; decide
    | objEmpty h1 =>
      simp at hx
      obtain ⟨rfl, -⟩ := first h1 (sig_of (by simp)) hx.2
      revert hc; decide
    | obj h1 =>
      simp at hx
      obtain ⟨u, z, rfl, hu⟩ := members_head (lexical_rfc false) h1
      obtain ⟨rfl, -⟩ := first (d := 0x22) (v := z ++ [0x7d]) hu (sig_of (by simp)) (by simpa using hx.2)
      revert hc; decide
    | arr h1 =>
      simp at hx
      cases h1 with
      | last h2 h3 h4 => exact elem h2 h3 h4 close (z := []) (by simpa using hx.2)
      | lastComma h _ _ _ _ => exact absurd h (by decide)
      | cons h2 h3 h4 h5 => exact elem h2 h3 h4 comma (by simpa using hx.2)

private theorem second_line {v : Value} {t : Text} (hv : v.Json) (hc : v.IsContainer) (h : v.dumps (some 4) = .ok t) : ∃ c y, t = c :: 0x0a :: y := by
  simp only [Value.dumps] at h
  rcases hc with hc | hc <;> cases v <;> simp only [Value.type] at hc <;> subst hc
  all_goals first
    | (simp [Value.Json, Value.Wf] at hv; done)
    | (simp only [Value.formatTo] at h
       revert h
       generalize Value.formatElems _ _ _ = o
       cases o <;> simp [Out.bind]
       rintro rfl
       exact ⟨_, _, rfl⟩)
    | (simp only [Value.formatTo] at h
       revert h
       generalize Value.formatMembers _ _ _ = o
       cases o <;> simp [Out.bind]
       rintro rfl
       exact ⟨_, _, rfl⟩)

private theorem replicate_ws {c : UInt8} (n : Nat) (h : WsChar c) : Ws (List.replicate n c) := fun _ hd => (List.mem_replicate.1 hd).2 ▸ h

/-- Full statement: what is printed can be parsed. Proved: that depends on the width and the fill character, and exactly when it cannot be parsed. It is never read as another value. -/
theorem C80_exact_partial (a : Accel) (k : Bool) (os : Ostream) (v : Value) (hg : os.good = true) (hv : v.Json) (hc : v.IsContainer) :
    ∃ t os' x, v.dumps (some 4) = .ok t ∧ os.value v = .ok os' ∧ os'.written = os.written ++ x ∧
      parser ⟨k, a.traits⟩ x =
        if os.width ≤ t.length ∨ os.fill ∈ [0x20, 0x09, 0x0a, 0x0d] ∨ (os.left = true ∧ (os.fill = 0x00 ∨ os.fill = 0x2f)) then some v else none := by
  obtain ⟨t, ht, j, hj, rfl⟩ := dumps_spells hv (some 4)
  have hjc := (toValue_container j).2 hc
  have ht' : Value.stream j.toValue = .ok t := ht
  refine ⟨t, os.put t, if os.left then t ++ os.pad t else os.pad t ++ t, ht, by simp [Ostream.value, ht'], by simp [Ostream.put, hg], ?_⟩
  have hl : Val (lenient k false) t j :=
    val_mono (D := rfc8259) (D' := lenient k false) (fun _ h => ws_wsOf k h) (by simp [rfc8259]) (fun h => h) hj fun _ _ _ h => str_lenient h
  have good (w r w' : Text) (h1 : Ws w) (h2 : Ws w') (h3 : Stop k r) : parser ⟨k, a.traits⟩ (w ++ t ++ w' ++ r) = some j.toValue :=
    parser_complete (cfg := ⟨k, a.traits⟩) (accelOk a) ⟨_, r, ⟨hjc, w, t, w', ws_wsOf k h1, hl, ws_wsOf k h2, rfl⟩, h3, rfl⟩
  obtain ⟨n, hn⟩ : ∃ n, (os.width - t.length).toNat = n := ⟨_, rfl⟩
  have hp : os.pad t = List.replicate n os.fill := by simp [Ostream.pad, hn]
  rw [hp]
  cases n with
  | zero =>
    rw [if_pos (Or.inl (by omega))]
    have := good [] [] [] ws_nil ws_nil .eof
    split <;> simpa using this
  | succ n =>
    have hw : ¬ os.width ≤ t.length := by omega
    by_cases hf : WsChar os.fill
    · rw [if_pos (Or.inr (.inl (by unfold WsChar at hf; simpa using hf)))]
      split
      · simpa using good [] [] _ ws_nil (replicate_ws (n + 1) hf) .eof
      · simpa using good _ [] [] (replicate_ws (n + 1) hf) ws_nil .eof
    · have hf' : os.fill ∉ [0x20, 0x09, 0x0a, 0x0d] := by unfold WsChar at hf; simpa using hf
      cases hleft : os.left with
      | false =>
        have hn : ¬ (os.width ≤ t.length ∨ os.fill ∈ [0x20, 0x09, 0x0a, 0x0d] ∨ (false = true ∧ (os.fill = 0x00 ∨ os.fill = 0x2f))) := by
          rintro (h | h | h)
          · exact hw h
          · exact hf' h
          · exact absurd h.1 (by decide)
        rw [if_neg hn]
        by_cases hs : k = true ∧ os.fill = 0x2f
        · obtain ⟨rfl, hs⟩ := hs
          obtain ⟨c, y, hty⟩ := second_line hv hc ht
          simpa [hs] using slash_none a hj hjc hty n
        · simpa using front_none a k hj hjc os.fill n hf fun h1 h2 => hs ⟨h1, h2⟩
      | true =>
        by_cases h0 : os.fill = 0x00 ∨ os.fill = 0x2f
        · rw [if_pos (Or.inr (.inr ⟨rfl, h0⟩))]
          have hs : Stop k (List.replicate (n + 1) os.fill) := by
            rcases h0 with h0 | h0 <;> rw [h0]
            · exact .nul
            · cases k with
              | false => exact .slash rfl
              | true =>
                cases n with
                | zero => exact .badSlash rfl (by simp) (by simp)
                | succ n => exact .lineEof rfl (by simp [List.mem_replicate])
          simpa using good [] _ [] ws_nil ws_nil hs
        · have hn : ¬ (os.width ≤ t.length ∨ os.fill ∈ [0x20, 0x09, 0x0a, 0x0d] ∨ (true = true ∧ (os.fill = 0x00 ∨ os.fill = 0x2f))) := by
            rintro (h | h | h)
            · exact hw h
            · exact hf' h
            · exact h0 h.2
          rw [if_neg hn]
          have h0' : Sig os.fill := ⟨hf, fun h => h0 (.inr h), fun h => h0 (.inl h)⟩
          simpa [List.replicate_succ] using behind_none a k hj hjc os.fill (List.replicate n os.fill) h0'

example : ({ width := 100, fill := 0x2f } : Ostream).good = true ∧ Samples.value.Json ∧ Samples.value.IsContainer := ⟨rfl, Samples.value_json, .inr rfl⟩

/-- Without a width, or with the fill character that streams start with, the claim holds. -/
theorem C80_default_partial (a : Accel) (k : Bool) (os : Ostream) (v : Value) (hg : os.good = true) (hv : v.Json) (hc : v.IsContainer)
    (h : os.width ≤ 0 ∨ os.fill = 0x20) :
    ∃ os' x, os.value v = .ok os' ∧ os'.written = os.written ++ x ∧ parser ⟨k, a.traits⟩ x = some v := by
  obtain ⟨t, os', x, -, h1, h2, h3⟩ := C80_exact_partial a k os v hg hv hc
  refine ⟨os', x, h1, h2, ?_⟩
  rw [h3, if_pos]
  rcases h with h | h
  · exact .inl (by omega)
  · exact .inr (.inl (by simp [h]))

example : ({} : Ostream).good = true ∧ ({} : Ostream).width ≤ 0 ∧ Samples.value.Json ∧ Samples.value.IsContainer := ⟨rfl, by decide, Samples.value_json, .inr rfl⟩

/-- `out << std::setw(4) << std::setfill('*') << json::object()` writes `*{\n}`. -/
theorem C80_refuted : ¬ C80Claim := by
  intro h
  have he : Value.Json (.obj .object []) := by simp [Value.Json, Value.Wf, Value.WfMembers]
  obtain ⟨os', x, h1, h2, h3⟩ := h .none { width := 4, fill := 0x2a } (.obj .object []) rfl he (.inr rfl)
  obtain ⟨t, os'', x', h4, h5, h6, h7⟩ := C80_exact_partial .none false { width := 4, fill := 0x2a } (.obj .object []) rfl he (.inr rfl)
  rw [h1] at h5
  cases h5
  rw [h2] at h6
  simp at h6
  subst h6
  have : t = [0x7b, 0x0a, 0x7d] := by
    have h : (Value.obj .object []).dumps (some 4) = .ok [0x7b, 0x0a, 0x7d] := by decide +kernel
    rw [h] at h4; cases h4; rfl
  subst this
  have h8 : parse Accel.none.traits x = none := by
    have := h7
    rw [if_neg (by decide)] at this
    exact this
  rw [h8] at h3
  cases h3

end Meojson
