import Verif.Spec.Arrive
import Verif.Props.Serialize
import Verif.Props.Parse
import Verif.Props.Safety
import Mathlib.Data.List.Forall2

/-!
# C111: documents can be sent one after another
-/

set_option autoImplicit false

namespace Meojson
open Spec

private theorem closed_lenient {k : Bool} (l : Bool) {s : Text} {j : Doc} (h : Closed (if k then jsonc else rfc8259) s j) : Closed (lenient k l) s j := by
  obtain ⟨hj, w, t, hw, ht, rfl⟩ := h
  cases k with
  | true => exact ⟨hj, w, t, hw, val_mono (D := jsonc) (D' := lenient true l) (fun _ h => h) (fun h => h) (fun h => h) ht fun _ _ _ h => str_lenient h, rfl⟩
  | false => exact ⟨hj, w, t, hw, val_mono (D := rfc8259) (D' := lenient false l) (fun _ h => h) (fun h => h) (fun h => h) ht fun _ _ _ h => str_lenient h, rfl⟩

private theorem closed_read (a : Accel) {k : Bool} {s : Text} {j : Doc} (h : Closed (if k then jsonc else rfc8259) s j) : parser ⟨k, a.traits⟩ s = some j.toValue := by
  obtain ⟨hj, w, t, hw, ht, rfl⟩ := closed_lenient false h
  refine parser_complete (cfg := ⟨k, a.traits⟩) (accelOk a) ⟨w ++ t, [], ⟨hj, w, t, [], hw, ht, ?_, by simp⟩, .eof, by simp⟩
  exact wsOf_nil k

/-- Nothing shorter than a whole document can be read. -/
theorem C111_early (a : Accel) (k : Bool) (s p : Text) (j : Doc) (h : Closed (if k then jsonc else rfc8259) s j) (hp : p <+: s) (hne : p ≠ s) : parser ⟨k, a.traits⟩ p = none := by
  cases he : parser ⟨k, a.traits⟩ p with
  | none => rfl
  | some v =>
    exfalso
    obtain ⟨j', ⟨_, r, ⟨hj', w₁, b, w₂, hw₁, hb, hw₂, rfl⟩, -, rfl⟩, -⟩ := parser_sound (cfg := ⟨k, a.traits⟩) (accelOk a) he
    obtain ⟨hj, w, t, hw, ht, rfl⟩ := closed_lenient a.traits.isSome h
    obtain ⟨x, e⟩ := hp
    have hL := lexical_lenient k a.traits.isSome
    obtain ⟨c, y, rfl, hc⟩ := val_sig hL ht
    obtain ⟨c₁, y₁, rfl, hc₁⟩ := val_sig hL hb
    obtain ⟨rfl, rfl, e1⟩ := ws_det (x := y) (x' := y₁ ++ (w₂ ++ r) ++ x) hw hw₁ hc.1 hc₁.1 (by rw [← e]; simp)
    obtain ⟨e2, -⟩ := val_det hL ht _ _ [] (w₂ ++ r ++ x) hb (by rw [e1]; simp) (.inl hj) (.inl hj')
    simp only [List.cons.injEq, true_and] at e2
    rw [e2] at e1
    simp at e1
    apply hne
    rw [e2, e1.1, e1.2.1]
    simp

private theorem arrivals_none {α : Type} {read : Text → Option α} : ∀ {p kept : Text}, (∀ q, q <+: p → q ≠ [] → read (kept ++ q) = none) → arrivals read kept p = [] := by
  intro p
  induction p with
  | nil => intro _ _; rfl
  | cons c p ih =>
    intro kept h
    rw [arrivals, h [c] ⟨p, rfl⟩ (by simp)]
    exact ih fun q hq _ => by
      rw [List.append_assoc]
      exact h (c :: q) (by simpa using hq) (by simp)

private theorem arrivals_one {α : Type} {read : Text → Option α} {v : α} : ∀ {s kept : Text}, s ≠ [] → (∀ q, q <+: s → q ≠ s → read (kept ++ q) = none) → read (kept ++ s) = some v → ∀ r,
    arrivals read kept (s ++ r) = v :: arrivals read [] r := by
  intro s
  induction s with
  | nil => intro _ h; exact absurd rfl h
  | cons c s ih =>
    intro kept _ h hs r
    cases s with
    | nil => rw [List.singleton_append, arrivals, hs]
    | cons d s =>
      rw [List.cons_append, arrivals, h [c] ⟨d :: s, rfl⟩ (by simp)]
      refine ih (by simp) (fun q hq hne => ?_) (by rw [List.append_assoc]; exact hs) r
      rw [List.append_assoc]
      exact h (c :: q) (by simpa using hq) (by simpa using hne)

private theorem closed_ne {D : Dialect} {k : Bool} (hD : Lexical k D) {s : Text} {j : Doc} (h : Closed D s j) : s ≠ [] := by
  obtain ⟨-, w, t, -, ht, rfl⟩ := h
  obtain ⟨c, y, rfl, -⟩ := val_sig hD ht
  simp

private theorem arrive_core {D : Dialect} {k : Bool} (hD : Lexical k D) {read : Text → Option Value} (whole : ∀ s j, Closed D s j → read s = some j.toValue)
    (early : ∀ s j q, Closed D s j → q <+: s → q ≠ s → read q = none) {ss : List Text} {js : List Doc} (h : List.Forall₂ (Closed D) ss js) (p : Text) (hp : p <+: ss.flatten) :
    ∃ n ≤ ss.length, arrivals read [] p = (js.take n).map Doc.toValue ∧ ∀ m ≤ ss.length, (ss.take m).flatten <+: p ↔ m ≤ n := by
  induction h generalizing p with
  | nil =>
    rw [show p = [] from List.prefix_nil.1 hp]
    exact ⟨0, Nat.le_refl _, rfl, fun m hm => by simp at hm; simp [hm]⟩
  | @cons s j ss js hs _ ih =>
    have hne : s ≠ [] := closed_ne hD hs
    rw [List.flatten_cons] at hp
    by_cases hsp : s <+: p
    · obtain ⟨q, rfl⟩ := hsp
      rw [List.prefix_append_right_inj] at hp
      obtain ⟨n, h1, h2, h3⟩ := ih q hp
      refine ⟨n + 1, by simpa using h1, ?_, fun m hm => ?_⟩
      · rw [arrivals_one hne (fun q hq hn => early s j q hs hq hn) (whole s j hs), h2]
        rfl
      · cases m with
        | zero => simp
        | succ m =>
          rw [List.take_succ_cons, List.flatten_cons, List.prefix_append_right_inj, h3 m (by simpa using hm)]
          omega
    · have hps : p <+: s := by
        rcases List.prefix_or_prefix_of_prefix hp (List.prefix_append s _) with h | h
        · exact h
        · exact absurd h hsp
      refine ⟨0, Nat.zero_le _, arrivals_none fun q hq _ => early s j q hs (hq.trans hps) ?_, fun m _ => ?_⟩
      · rintro rfl
        exact hsp hq
      · cases m with
        | zero => simp
        | succ m =>
          simp only [List.take_succ_cons, List.flatten_cons, Nat.le_zero_eq, Nat.add_one_ne_zero, iff_false]
          exact fun h => hsp ((List.prefix_append _ _).trans h)

private theorem lexical_of (k : Bool) : Lexical k (if k then jsonc else rfc8259) := by
  cases k with
  | true => exact ⟨fun _ h => h, fun _ _ h => str_lenient h⟩
  | false => exact lexical_rfc false

/-- Documents come in one after another, with or without white space between them (for parsec, also comments). At every moment the reader has got exactly those that are complete, in their order. -/
theorem C111_arrive (a : Accel) (k : Bool) (ss : List Text) (js : List Doc) (h : List.Forall₂ (Closed (if k then jsonc else rfc8259)) ss js) (p : Text) (hp : p <+: ss.flatten) :
    ∃ n ≤ ss.length, arrivals (parser ⟨k, a.traits⟩) [] p = (js.take n).map Doc.toValue ∧ ∀ m ≤ ss.length, (ss.take m).flatten <+: p ↔ m ≤ n :=
  arrive_core (lexical_of k) (fun _ _ h => closed_read a h) (fun s j q h => C111_early a k s q j h) h p hp

/-- It is enough to try after a closing bracket. -/
theorem C111_brackets (a : Accel) (k : Bool) (ss : List Text) (js : List Doc) (h : List.Forall₂ (Closed (if k then jsonc else rfc8259)) ss js) (p : Text) (hp : p <+: ss.flatten) :
    arrivals (fun s => if s.getLast? = some 0x5d ∨ s.getLast? = some 0x7d then parser ⟨k, a.traits⟩ s else none) [] p = arrivals (parser ⟨k, a.traits⟩) [] p := by
  obtain ⟨n, h1, h2, h3⟩ := C111_arrive a k ss js h p hp
  obtain ⟨m, h4, h5, h6⟩ := arrive_core (lexical_of k) (read := fun s => if s.getLast? = some 0x5d ∨ s.getLast? = some 0x7d then parser ⟨k, a.traits⟩ s else none)
    (fun s j h => by
      show ite _ _ _ = _
      rw [if_pos, closed_read a h]
      obtain ⟨hj, w, t, -, ht, rfl⟩ := h
      cases ht <;> first | (simp [Doc.isContainer] at hj; done) | simp [List.getLast?_cons])
    (fun s j q h hq hn => by
      show ite _ _ _ = _
      rw [C111_early a k s q j h hq hn, ite_self]) h p hp
  have e : m = n := Nat.le_antisymm ((h3 m h4).1 ((h6 m h4).2 (Nat.le_refl _))) ((h6 n h1).1 ((h3 n h1).2 (Nat.le_refl _)))
  rw [h5, h2, e]

private theorem written_closed {v : Value} (hv : v.Json) (hc : v.IsContainer) {i : Option Nat} {t : Text} (h : v.dumps i = .ok t) (k : Bool) : ∃ j, Closed (if k then jsonc else rfc8259) t j ∧ j.toValue = v := by
  obtain ⟨t', h1, j, h2, rfl⟩ := dumps_spells hv i
  rw [h] at h1
  cases h1
  refine ⟨j, ⟨(toValue_container j).2 hc, [], t, ?_, ?_, rfl⟩, rfl⟩
  · cases k with
    | true => exact WsC.nil
    | false => exact ws_nil
  · cases k with
    | true => exact val_mono (D := rfc8259) (D' := jsonc) (fun _ h => ws_wsOf true h) (fun h => by cases h) (fun h => h) h2 fun _ _ _ h => h
    | false => exact h2

/-- For documents written by dumps or format, one right after another: at every moment the reader has got exactly those that are complete. -/
theorem C111_written (a : Accel) (k : Bool) (vs : List Value) (ts : List Text) (h : List.Forall₂ (fun v t => v.Json ∧ v.IsContainer ∧ ∃ indent, v.dumps indent = .ok t) vs ts) (p : Text) (hp : p <+: ts.flatten) :
    ∃ n ≤ vs.length, arrivals (parser ⟨k, a.traits⟩) [] p = vs.take n ∧ ∀ m ≤ vs.length, (ts.take m).flatten <+: p ↔ m ≤ n := by
  obtain ⟨js, h1, h2⟩ : ∃ js : List Doc, List.Forall₂ (Closed (if k then jsonc else rfc8259)) ts js ∧ js.map Doc.toValue = vs := by
    clear hp
    induction h with
    | nil => exact ⟨[], .nil, rfl⟩
    | cons h _ ih =>
      obtain ⟨hv, hc, i, hd⟩ := h
      obtain ⟨j, hj, rfl⟩ := written_closed hv hc hd k
      obtain ⟨js, h1, h2⟩ := ih
      exact ⟨j :: js, .cons hj h1, by rw [List.map_cons, h2]⟩
  obtain ⟨n, h3, h4, h5⟩ := C111_arrive a k ts js h1 p hp
  rw [h.length_eq]
  exact ⟨n, h3, by rw [h4, ← h2, List.map_take], h5⟩

/-- The texts need no separator: two sequences of documents whose texts, one right after another, are the same bytes are the same sequence, whatever the indents. -/
theorem C111_unique (vs ws : List Value) (ts us : List Text) (h : List.Forall₂ (fun v t => v.Json ∧ v.IsContainer ∧ ∃ indent, v.dumps indent = .ok t) vs ts)
    (h' : List.Forall₂ (fun v t => v.Json ∧ v.IsContainer ∧ ∃ indent, v.dumps indent = .ok t) ws us) (e : ts.flatten = us.flatten) : vs = ws := by
  have all : ∀ (vs : List Value) (ts : List Text), List.Forall₂ (fun v t => v.Json ∧ v.IsContainer ∧ ∃ indent, v.dumps indent = .ok t) vs ts → arrivals (parse none) [] ts.flatten = vs := by
    intro vs ts h
    obtain ⟨n, h1, h2, h3⟩ := C111_written .none false vs ts h _ (List.prefix_refl _)
    have := (h3 vs.length (Nat.le_refl _)).1 (by rw [h.length_eq, List.take_length]; exact List.prefix_refl _)
    rw [List.take_of_length_le this] at h2
    exact h2
  rw [← all vs ts h, ← all ws us h', e]

theorem tries_length {α : Type} (read : Text → Option α) (s : Text) : ∀ kept, (tries read kept s).length = s.length := by
  induction s with
  | nil => intro _; rfl
  | cons c s ih =>
    intro kept
    rw [tries]
    split <;> simp [ih]

theorem tries_short {α : Type} (read : Text → Option α) (s : Text) : ∀ kept, ∀ q ∈ tries read kept s, q.length ≤ kept.length + s.length := by
  induction s with
  | nil => intro _ q h; cases h
  | cons c s ih =>
    intro kept q h
    rw [tries, List.mem_cons] at h
    rw [List.length_cons]
    rcases h with rfl | h
    · simp
    · split at h
      · have := ih _ q h
        simp at this
        omega
      · have := ih _ q h
        simp at this
        omega

private theorem tries_one {α : Type} {read : Text → Option α} {v : α} : ∀ {s kept : Text}, s ≠ [] → (∀ q, q <+: s → q ≠ s → read (kept ++ q) = none) → read (kept ++ s) = some v → ∀ r,
    ∃ front, tries read kept (s ++ r) = front ++ tries read [] r ∧ ∀ q ∈ front, q.length ≤ kept.length + s.length := by
  intro s
  induction s with
  | nil => intro _ h; exact absurd rfl h
  | cons c s ih =>
    intro kept _ h hs r
    cases s with
    | nil =>
      refine ⟨[kept ++ [c]], ?_, by simp⟩
      rw [List.singleton_append, tries, hs]
      rfl
    | cons d s =>
      obtain ⟨front, h1, h2⟩ := ih (kept := kept ++ [c]) (by simp) (fun q hq hne => by
        rw [List.append_assoc]
        exact h (c :: q) (by simpa using hq) (by simpa using hne)) (by rw [List.append_assoc]; exact hs) r
      refine ⟨(kept ++ [c]) :: front, ?_, ?_⟩
      · rw [List.cons_append, tries, h [c] ⟨d :: s, rfl⟩ (by simp)]
        exact congrArg ((kept ++ [c]) :: ·) h1
      · intro q hq
        rcases List.mem_cons.1 hq with rfl | hq
        · simp
        · have := h2 q hq
          simp at this ⊢
          omega

/-- Each byte is the occasion for one parse, of a text no longer than the longest document. -/
theorem C111_tries (a : Accel) (k : Bool) (ss : List Text) (js : List Doc) (h : List.Forall₂ (Closed (if k then jsonc else rfc8259)) ss js) (p : Text) (hp : p <+: ss.flatten)
    (L : Nat) (hL : ∀ s ∈ ss, s.length ≤ L) : (tries (parser ⟨k, a.traits⟩) [] p).length = p.length ∧ ∀ q ∈ tries (parser ⟨k, a.traits⟩) [] p, q.length ≤ L := by
  refine ⟨tries_length _ _ _, ?_⟩
  induction h generalizing p with
  | nil =>
    rw [show p = [] from List.prefix_nil.1 hp]
    exact fun _ h => nomatch h
  | @cons s j ss js hs _ ih =>
    rw [List.flatten_cons] at hp
    have hs' := hL s (by simp)
    by_cases hsp : s <+: p
    · obtain ⟨q, rfl⟩ := hsp
      rw [List.prefix_append_right_inj] at hp
      obtain ⟨front, h1, h2⟩ := tries_one (kept := []) (closed_ne (lexical_of k) hs) (fun q hq hn => C111_early a k s q j hs hq hn) (closed_read a hs) q
      intro x hx
      rw [h1, List.mem_append] at hx
      rcases hx with hx | hx
      · have := h2 x hx
        simp at this
        omega
      · exact ih q hp (fun s h => hL s (List.mem_cons_of_mem _ h)) x hx
    · have hps : p <+: s := by
        rcases List.prefix_or_prefix_of_prefix hp (List.prefix_append s _) with h | h
        · exact h
        · exact absurd h hsp
      intro x hx
      have h1 := tries_short _ _ _ x hx
      have h2 := hps.length_le
      simp at h1
      omega

/-- The work of all these parses, in the steps of C07. -/
theorem C111_work (a : Accel) (k : Bool) (ss : List Text) (js : List Doc) (h : List.Forall₂ (Closed (if k then jsonc else rfc8259)) ss js) (p : Text) (hp : p <+: ss.flatten)
    (L : Nat) (hL : ∀ s ∈ ss, s.length ≤ L) :
    ((tries (parser ⟨k, a.traits⟩) [] p).map fun q => (parseRunT ⟨k, a.traits⟩ (parseFuel q) q).ticks).sum ≤ p.length * (64 * L + 9) := by
  obtain ⟨h1, h2⟩ := C111_tries a k ss js h p hp L hL
  rw [← h1]
  generalize tries (parser ⟨k, a.traits⟩) [] p = qs at h2
  induction qs with
  | nil => simp
  | cons q qs ih =>
    obtain ⟨_, -, -, h3⟩ := C07_linear a k q
    have h4 := (h3 (parseFuel q)).2
    have h5 := h2 q (by simp)
    have h6 := ih fun x hx => h2 x (List.mem_cons_of_mem _ hx)
    rw [List.map_cons, List.sum_cons, List.length_cons, Nat.succ_mul]
    omega

/-- One byte that cannot begin a document stops the reader for good: whatever comes after it, nothing is got. -/
theorem C111_stray (a : Accel) (k : Bool) (w : Text) (hw : if k then WsC w else Ws w) (c : UInt8) (hc : ¬ WsChar c ∧ c ≠ 0x2f ∧ c ≠ 0x00) (hb : c ≠ 0x5b ∧ c ≠ 0x7b) (s : Text) :
    arrivals (parser ⟨k, a.traits⟩) [] (w ++ c :: s) = [] := by
  have hw' : wsOf k w := by cases k <;> exact hw
  refine arrivals_none fun q hq _ => ?_
  rw [List.nil_append]
  cases he : parser ⟨k, a.traits⟩ q with
  | none => rfl
  | some v =>
    exfalso
    obtain ⟨j', ⟨_, r, ⟨hj', w₁, b, w₂, hw₁, hb', hw₂, rfl⟩, -, rfl⟩, -⟩ := parser_sound (cfg := ⟨k, a.traits⟩) (accelOk a) he
    obtain ⟨d, y, rfl, hd⟩ : ∃ d y, b = d :: y ∧ (d = 0x5b ∨ d = 0x7b) := by
      cases hb' <;> first | (simp [Doc.isContainer] at hj'; done) | exact ⟨_, _, rfl, by simp⟩
    obtain ⟨x, e⟩ := hq
    have hsig : Sig d := by rcases hd with rfl | rfl <;> (unfold Sig WsChar; decide)
    obtain ⟨-, rfl, -⟩ := ws_det (x := s) (x' := y ++ w₂ ++ r ++ x) hw' hw₁ hc hsig (by rw [← e]; simp)
    rcases hd with rfl | rfl
    · exact hb.1 rfl
    · exact hb.2 rfl

example : arrivals (parse none) [] (ascii "[1]{} [\"]\"]\n[2") = [.arr .array [.str .number (ascii "1")], .obj .object [], .arr .array [.str .string (ascii "]")]] ∧
    arrivals (parse none) [] (ascii "[1],[2]") = [.arr .array [.str .number (ascii "1")]] ∧
    arrivals (parsec none) [] (ascii "[]// [1]\n{}") = [.arr .array [], .obj .object []] := by decide +kernel

example : tries (parse none) [] (ascii "[] []") = [ascii "[", ascii "[]", ascii " ", ascii " [", ascii " []"] := by decide +kernel

example : Closed rfc8259 (ascii " []") (.arr []) := ⟨rfl, [0x20], _, by simp [rfc8259, Ws, WsChar], .arrEmpty (w := []) ws_nil, rfl⟩

example : List.Forall₂ (fun v t => Value.Json v ∧ v.IsContainer ∧ ∃ indent, v.dumps indent = .ok t) [Value.arr .array []] [ascii "[]"] :=
  .cons ⟨by simp [Value.Json, Value.Wf, Value.WfAll], .inl rfl, none, by decide +kernel⟩ .nil

end Meojson
