import Verif.Proofs.PourCost
import Verif.Proofs.Work
import Verif.Props.Layout
import Mathlib.Tactic.Ring

/-!
# C97: a text is written with memory and copying in proportion to it

`Value.dumpsS` (Model/Pour.lean) is `dumps` call by call on one `std::string` that grows; `Str.Standard` (Spec/Pour.lean) is what the standard libraries promise of it. `Value.dumps` is the text as a whole.
-/

set_option autoImplicit false

namespace Meojson
open Value

private theorem dumpsS_does (L : Str) (v : Value) (indent : Option Nat) : ∃ ts e, v.dumpsS L indent = pourAll L ts e L.empty ∧ v.dumps indent = told ts e := by
  cases indent with
  | none =>
    obtain ⟨ts, e, h1, h2⟩ := does_pour L v
    exact ⟨ts, e, h1 _, h2⟩
  | some n =>
    obtain ⟨ts, e, h1, h2⟩ := does_format L n 0 v
    exact ⟨ts, e, h1 _, h2⟩

/-- If memory is never refused, the text comes out when a string can hold it, and `std::length_error` when none can. There is no third way. -/
theorem C97_text (L : Str) (hL : L.Standard) (hg : L.Generous) (v : Value) (indent : Option Nat) (t : Bytes) (h : v.dumps indent = .ok t) :
    (t.length ≤ L.max → (v.dumpsS L indent).res = .ok () ∧ (v.dumpsS L indent).sink.text = t) ∧
    (L.max < t.length → (v.dumpsS L indent).res = .throw .lengthError) := by
  obtain ⟨ts, e, h1, h2⟩ := dumpsS_does L v indent
  rw [h] at h2
  have he : e = .ok () ∧ ts.flatten = t := by cases e <;> simp_all [told]
  obtain ⟨rfl, rfl⟩ := he
  obtain ⟨k, _, r⟩ := pourAll_cases hL ts (.ok ()) (Kept.empty hL)
  rw [← h1] at k r
  have e0 : L.empty.text = [] := rfl
  rw [e0, List.nil_append] at r
  rcases r with ⟨r1, r2⟩ | ⟨r1, r2⟩ | ⟨_, i, n, hn⟩
  · refine ⟨fun _ => ⟨r1, r2⟩, fun hm => ?_⟩
    have b1 := k.len; have b2 := k.high
    rw [r2] at b1; omega
  · simp only [List.length_nil, Nat.zero_add] at r2
    exact ⟨fun hm => absurd hm (by omega), fun _ => r1⟩
  · rw [hg i n] at hn; cases hn

/-- However memory is refused: it ends as `dumps` says, with that text; or with `std::length_error`, which takes a text that no string can hold; or with `std::bad_alloc`, which takes a refusal. What
has been written by then is a beginning of the text. -/
theorem C97_outcome (L : Str) (hL : L.Standard) (v : Value) (indent : Option Nat) :
    ((v.dumpsS L indent).res = .ok () → v.dumps indent = .ok (v.dumpsS L indent).sink.text ∧ (v.dumpsS L indent).sink.text.length ≤ L.max) ∧
    ((v.dumpsS L indent).res = .ub → v.dumps indent = .ub) ∧
    (∀ e, (v.dumpsS L indent).res = .throw e →
      v.dumps indent = .throw e ∨ (e = .lengthError ∧ ∀ t, v.dumps indent = .ok t → L.max < t.length) ∨ (e = .badAlloc ∧ ∃ k n, L.gives k n = false)) ∧
    (∀ t, v.dumps indent = .ok t → (v.dumpsS L indent).sink.text <+: t) := by
  obtain ⟨ts, e, h1, h2⟩ := dumpsS_does L v indent
  obtain ⟨k, ⟨us, vs, p1, p2⟩, r⟩ := pourAll_cases hL ts e (Kept.empty hL)
  rw [← h1] at k p2 r
  have e0 : L.empty.text = [] := rfl
  rw [e0, List.nil_append] at p2 r
  rw [h2]
  refine ⟨fun hr => ?_, fun hr => ?_, fun x hr => ?_, fun t ht => ?_⟩
  · rcases r with ⟨r1, r2⟩ | ⟨r1, _⟩ | ⟨r1, _⟩
    · have : e = .ok () := r1.symm.trans hr
      subst this
      have := k.len; have := k.high
      exact ⟨by rw [r2]; rfl, by omega⟩
    · rw [hr] at r1; cases r1
    · rw [hr] at r1; cases r1
  · rcases r with ⟨r1, r2⟩ | ⟨r1, _⟩ | ⟨r1, _⟩
    · have : e = .ub := r1.symm.trans hr
      subst this; rfl
    · rw [hr] at r1; cases r1
    · rw [hr] at r1; cases r1
  · rcases r with ⟨r1, r2⟩ | ⟨r1, r2⟩ | ⟨r1, r2⟩
    · have : e = .throw x := r1.symm.trans hr
      subst this; exact .inl rfl
    · rw [hr] at r1; cases r1
      refine .inr (.inl ⟨rfl, fun t ht => ?_⟩)
      have : ts.flatten = t := by cases e <;> simp_all [told]
      subst this; simpa using r2
    · rw [hr] at r1; cases r1
      exact .inr (.inr ⟨rfl, r2⟩)
  · have : ts.flatten = t := by cases e <;> simp_all [told]
    rw [p2, ← this, p1]
    exact List.prefix_append us vs

/-- However it ends: for `n` bytes written, at most 3.5 n bytes are carried from one buffer to the next, the buffers asked for have together at most 6.5 n + 1 bytes, at most 4 n + 1 are held at a time, and the string
that is returned has no more than 3 n besides the room inside it. Buffers are asked for at most 3 log n + 2 times. -/
theorem C97_cost (L : Str) (hL : L.Standard) (v : Value) (indent : Option Nat) :
    let out := (v.dumpsS L indent).sink
    2 * out.moved ≤ 7 * out.text.length ∧ 2 * out.asked ≤ 13 * out.text.length + 2 ∧ out.peak ≤ 4 * out.text.length + 1 ∧ out.cap ≤ max L.small (3 * out.text.length) ∧
      out.requests ≤ 3 * out.text.length.log2 + 2 := by
  obtain ⟨ts, e, h1, _⟩ := dumpsS_does L v indent
  obtain ⟨k, _, _⟩ := pourAll_cases hL ts e (Kept.empty hL)
  rw [← h1] at k
  have h5 := k.logarithmic hL
  have a1 := k.moved; have a2 := k.asked; have a3 := k.peak; have a4 := k.cap
  rw [Nat.zero_max] at h5 a1 a2 a3 a4
  exact ⟨a1, a2, a3, by omega, h5⟩

/-- With the steps counted in C68: all that is done, calls, bytes written and bytes carried over, is at most nine for each byte and five more. -/
theorem C97_work (L : Str) (hL : L.Standard) (hg : L.Generous) (v : Value) (indent : Option Nat) (t : Bytes) (h : v.dumps indent = .ok t) (hm : t.length ≤ L.max) :
    (v.dumpsW indent).ticks + (v.dumpsS L indent).sink.moved ≤ 9 * t.length + 5 := by
  obtain ⟨_, h2⟩ := (C97_text L hL hg v indent t h).1 hm
  have h3 := (C97_cost L hL v indent).1
  rw [h2] at h3
  have h4 : (v.dumpsW indent).ticks ≤ 5 * t.length + 5 := by
    cases indent with
    | none =>
      have := (fine_dump v t ((dumpW_res v).trans h)).1
      simp only [dumpsW, Work.tick]; omega
    | some n =>
      have := (fine_format n 0 v t ((formatW_res n 0 v).trans h)).1
      simp only [dumpsW, Work.tick]; omega
  omega

/-- What `dump_to` and `format_to` find in the string stays there, whatever happens. -/
theorem C97_behind (L : Str) (hL : L.Standard) (ts : List Bytes) (v : Value) (indent : Option Nat) :
    let before := (pourAll L ts (.ok ()) L.empty).sink
    before.text <+: (match indent with | none => (v.pour L before) | some n => v.pourFormat L n 0 before).sink.text := by
  obtain ⟨k, _, _⟩ := pourAll_cases hL ts (.ok ()) (Kept.empty hL)
  cases indent with
  | none =>
    obtain ⟨us, e, h1, _⟩ := does_pour L v
    obtain ⟨_, ⟨as, bs, _, p⟩, _⟩ := pourAll_cases hL us e k
    simp only [h1, p]; exact List.prefix_append _ _
  | some n =>
    obtain ⟨us, e, h1, _⟩ := does_format L n 0 v
    obtain ⟨_, ⟨as, bs, _, p⟩, _⟩ := pourAll_cases hL us e k
    simp only [h1, p]; exact List.prefix_append _ _

/-- Any number may be given as indent, and one that no string can hold makes `dumps` of any array that is not empty throw `std::length_error`, though the value is sound. -/
theorem C97_indent (L : Str) (hL : L.Standard) (hg : L.Generous) (v : Value) (vs : List Value) (n : Nat) (hn : L.max < n) (h64 : n < 2 ^ 64) (t : Bytes)
    (h : (Value.arr .array (v :: vs)).dumps (some n) = .ok t) : ((Value.arr .array (v :: vs)).dumpsS L (some n)).res = .throw .lengthError := by
  refine (C97_text L hL hg _ _ t h).2 (Nat.lt_of_lt_of_le hn ?_)
  rw [dumps, formatTo] at h
  obtain ⟨a, h1, h2⟩ := Out.bind_eq_ok.1 h
  rw [formatElems] at h1
  obtain ⟨b, _, h3⟩ := Out.bind_eq_ok.1 h1
  obtain ⟨c, _, h4⟩ := Out.bind_eq_ok.1 h3
  cases h4; cases h2
  have : (spaces n (0 + 1)).length = n := by
    unfold spaces
    rw [List.length_replicate, Nat.zero_add, Nat.mul_one]
    exact Nat.mod_eq_of_lt h64
  simp only [List.length_append, this]
  omega

/-- The number of spaces is computed modulo 2^64, which is never seen: wherever it would be too small, a line further out has more spaces than a string can hold. So whenever `dumps(indent)` returns, the text is
the compact one laid out with `indent` spaces for each open bracket; C71 without its bound. -/
theorem C97_layout (L : Str) (hL : L.Standard) (hmax : L.max < 2 ^ 63) (v : Value) (hv : v.Json) (n : Nat) (hn : n < 2 ^ 64) (h : (v.dumpsS L (some n)).res = .ok ()) :
    ∃ t, v.dumps = .ok t ∧ (v.dumpsS L (some n)).sink.text = Spec.layout n 0 (.code false) t := by
  obtain ⟨h1, h2⟩ := (C97_outcome L hL v (some n)).1 h
  have h3 := unwrapped hn 0 v _ h1 (by omega) (by simp)
  rw [Nat.zero_add] at h3
  obtain ⟨t, h4, h5⟩ := C71_layout v hv n h3
  rw [h1] at h5
  exact ⟨t, h4, Out.ok.inj h5⟩

/-- `escape_string` reserves the length of what it is given. The outcome is the escaped text if a string can hold it; the cost is in proportion to it. -/
theorem C97_escape (L : Str) (hL : L.Standard) (hg : L.Generous) (s : Bytes) :
    ((escapeString s).length ≤ L.max → (escapeStringS L s).res = .ok () ∧ (escapeStringS L s).sink.text = escapeString s ∧ (escapeStringS L s).sink.requests ≤ 3 * (escapeString s).length.log2 + 2 ∧
      2 * (escapeStringS L s).sink.moved ≤ 7 * (escapeString s).length ∧ 2 * (escapeStringS L s).sink.asked ≤ 13 * (escapeString s).length + 2) ∧
    (L.max < (escapeString s).length → (escapeStringS L s).res = .throw .lengthError) := by
  have hlen := (Work.length_escape s).1
  rcases reserve_cases hL s.length with ⟨h1, h2, _, _, _, k⟩ | ⟨h1, h2⟩ | ⟨⟨i, n, h1⟩, _⟩
  · have e : escapeStringS L s = pourEscaped L s (L.reserve s.length L.empty).sink := by unfold escapeStringS Poured.andThen; rw [h1]
    obtain ⟨ts, x, g1, g2⟩ := does_escaped L s
    have hx : x = .ok () ∧ ts.flatten = escapeString s := by cases x <;> simp_all [told]
    obtain ⟨rfl, hts⟩ := hx
    obtain ⟨k', _, r⟩ := pourAll_cases hL ts (.ok ()) k
    rw [← g1, ← e] at k' r
    rw [hts, h2, List.nil_append] at r
    rcases r with ⟨r1, r2⟩ | ⟨r1, r2⟩ | ⟨_, i, n, hn⟩
    · have b1 := k'.logarithmic hL
      have b2 := k'.moved; have b3 := k'.asked; have b4 := k'.len; have b5 := k'.high
      rw [r2, Nat.max_eq_right hlen] at b1 b2 b3
      rw [r2] at b4
      exact ⟨fun _ => ⟨r1, r2, b1, b2, b3⟩, fun hm => absurd hm (by omega)⟩
    · simp only [List.length_nil, Nat.zero_add] at r2
      exact ⟨fun hm => absurd hm (by omega), fun _ => r1⟩
    · rw [hg i n] at hn; cases hn
  · have e : escapeStringS L s = ⟨.throw .lengthError, L.empty⟩ := by unfold escapeStringS; rw [h2]; rfl
    rw [e]
    exact ⟨fun hm => absurd hm (by omega), fun _ => rfl⟩
  · rw [hg i n] at h1; cases h1

private theorem plain_loop (L : Str) (beg s : Bytes) (h : ∀ c ∈ s, (0x20 : UInt8) ≤ c ∧ c ≠ 0x22 ∧ c ≠ 0x5c) (out : Sink) : pourEscapeLoop L beg s out = L.put (between beg []) out := by
  induction s with
  | nil => rfl
  | cons c s ih =>
    obtain ⟨h1, h2, h3⟩ := h c (by simp)
    have e : escapeLetter c = none := by
      unfold escapeLetter
      simp only [h2, h3, if_false]
      (repeat' split) <;> first | rfl | (subst_vars; exact absurd h1 (by decide))
    have h4 : ¬ c < 0x20 := UInt8.not_lt.2 h1
    simp only [pourEscapeLoop, e, h4, if_false]
    exact ih fun x hx => h x (List.mem_cons_of_mem _ hx)

/-- When there is nothing to escape, the reserved buffer is the only one and no byte is copied twice. -/
theorem C97_escape_plain (L : Str) (hL : L.Standard) (hg : L.Generous) (s : Bytes) (h : ∀ c ∈ s, (0x20 : UInt8) ≤ c ∧ c ≠ 0x22 ∧ c ≠ 0x5c) (hm : s.length ≤ L.max) :
    (escapeStringS L s).res = .ok () ∧ (escapeStringS L s).sink.text = s ∧ (escapeStringS L s).sink.requests ≤ 1 ∧ (escapeStringS L s).sink.moved = 0 := by
  rcases reserve_cases hL s.length with ⟨h1, h2, h3, h4, h5, _⟩ | ⟨h1, _⟩ | ⟨⟨i, n, h1⟩, _⟩
  · have e : escapeStringS L s = L.put (between s []) (L.reserve s.length L.empty).sink := by
      unfold escapeStringS Poured.andThen; rw [h1]; exact plain_loop L s s h _
    have b : between s [] = s := by simp [between]
    rw [b] at e
    have e' : L.put s (L.reserve s.length L.empty).sink = ⟨.ok (), { (L.reserve s.length L.empty).sink with text := s }⟩ := by
      have : (L.reserve s.length L.empty).sink.text.length + s.length ≤ (L.reserve s.length L.empty).sink.cap := by rw [h2]; simpa using h3
      simp only [Str.put, if_pos this]; rw [h2, List.nil_append]
    rw [e, e']
    exact ⟨rfl, rfl, h4, h5⟩
  · omega
  · rw [hg i n] at h1; cases h1

/-! ### The assumptions hold of the libraries there are, and the counts are not empty -/

/-- libstdc++ -/
def gnuStr : Str := ⟨15, 2 ^ 62 - 1, fun c n => min (max n (2 * c)) (2 ^ 62 - 1), fun _ _ => true⟩
/-- Microsoft's library -/
def microsoftStr : Str := ⟨15, 2 ^ 63 - 1, fun c n => min (max (n / 16 * 16 + 15) (c + c / 2)) (2 ^ 63 - 1), fun _ _ => true⟩

example : gnuStr.Standard ∧ gnuStr.Generous :=
  ⟨⟨by decide, by decide, fun c n h0 h h' => by simp only [gnuStr] at *; omega, fun c n h0 h h' => by simp only [gnuStr] at *; omega, fun c n h0 h h' => by simp only [gnuStr] at *; omega⟩, fun _ _ => rfl⟩
example : microsoftStr.Standard ∧ microsoftStr.Generous :=
  ⟨⟨by decide, by decide, fun c n h0 h h' => by simp only [microsoftStr] at *; omega, fun c n h0 h h' => by simp only [microsoftStr] at *; omega, fun c n h0 h h' => by simp only [microsoftStr] at *; omega⟩, fun _ _ => rfl⟩

/-- A string of 20 bytes at most. -/
private def shortStr : Str := ⟨15, 20, fun _ n => min (2 * n) 20, fun _ _ => true⟩
/-- A string that gets one buffer and no other. -/
private def onceStr : Str := ⟨15, 100, fun _ n => min (2 * n) 100, fun k _ => k != 1⟩
private def tenNulls : Value := .arr .array (List.replicate 10 .null)

/-- `[[], {"k": "a"}]`, indented: 45 bytes, in buffers of 31 and 61 bytes. For an instant there are both. And `[null,…,null]` with ten elements in buffers of 31 and 61 bytes, with 100 elements in buffers of 31, 61,
121, 241, 481 and 961 bytes. -/
theorem C97_counts :
    let counts (r : Poured) := (r.res, [r.sink.text.length, r.sink.cap, r.sink.moved, r.sink.requests, r.sink.asked, r.sink.peak])
    counts ((Value.arr .array [.arr .array [], .obj .object [([0x6b], .str .string [0x61])]]).dumpsS gnuStr (some 4)) = (.ok (), [45, 60, 45, 2, 92, 92]) ∧
    counts ((Value.arr .array (List.replicate 10 .null)).dumpsS gnuStr) = (.ok (), [51, 60, 45, 2, 92, 92]) ∧
    counts ((Value.arr .array (List.replicate 100 .null)).dumpsS gnuStr) = (.ok (), [501, 960, 945, 6, 1896, 1442]) := by decide +kernel
example : (tenNulls.dumpsS shortStr).res = .throw .lengthError ∧ (tenNulls.dumpsS onceStr).res = .throw .badAlloc ∧
    (tenNulls.dumpsS onceStr).sink.text = ascii "[null,null,null,null,null,null," := by decide +kernel
example : (escapeStringS gnuStr (ascii "a text that is longer \n than fifteen")).sink.text = ascii "a text that is longer \\n than fifteen" ∧
    (escapeStringS gnuStr (ascii "a text that is longer \n than fifteen")).sink.requests = 2 ∧ (escapeStringS gnuStr (ascii "a text that is longer than fifteen")).sink.requests = 1 := by decide +kernel
-- `[1]` with an indent of 2^63, in libstdc++.
example : ((Value.arr .array [.str .number [0x31]]).dumpsS gnuStr (some (2 ^ 63))).res = .throw .lengthError := by
  refine C97_indent gnuStr ⟨by decide, by decide, fun c n h0 h h' => by simp only [gnuStr] at *; omega, fun c n h0 h h' => by simp only [gnuStr] at *; omega, fun c n h0 h h' => by simp only [gnuStr] at *; omega⟩
    (fun _ _ => rfl) _ _ _ (by decide) (by decide) ([0x5b, 0x0a] ++ (spaces (2 ^ 63) 1 ++ [0x31] ++ [] ++ [0x0a] ++ []) ++ spaces (2 ^ 63) 0 ++ [0x5d]) ?_
  simp only [dumps, formatTo, formatElems, dumpTo, Out.bind_ok]
  rfl

/-! ### Growing by half is needed -/

private theorem stingy_put {L : Str} (hs : ∀ c n, L.grow c n = n) (hg : L.Generous) {s : Sink} (h : s.text.length = s.cap) (t : Bytes) (ht : t ≠ []) (hm : s.text.length + t.length ≤ L.max) :
    (L.put t s).res = .ok () ∧ (L.put t s).sink.text = s.text ++ t ∧ (L.put t s).sink.cap = s.text.length + t.length ∧ (L.put t s).sink.moved = s.moved + s.text.length := by
  have h1 : ¬ s.text.length + t.length ≤ s.cap := by
    have := List.length_pos_iff.2 ht
    omega
  have h2 : ¬ L.max < s.text.length + t.length := by omega
  have h3 := hg s.requests (s.text.length + t.length + 1)
  simp only [Str.put, if_neg h1, if_neg h2, hs, h3, Bool.true_eq_false, if_false, Sink.moveTo, and_self]

private theorem andThen_ok {r : Poured} (h : r.res = .ok ()) (f : Sink → Poured) : r.andThen f = f r.sink := by unfold Poured.andThen; rw [h]

private theorem stingy_elems {L : Str} (hs : ∀ c n, L.grow c n = n) (hg : L.Generous) (k : Nat) {s : Sink} (h : s.text.length = s.cap) (hm : s.text.length + 5 * k + 4 ≤ L.max) :
    (pourElems L (List.replicate (k + 1) .null) s).res = .ok () ∧ (pourElems L (List.replicate (k + 1) .null) s).sink.text.length = s.text.length + 5 * k + 4 ∧
      (pourElems L (List.replicate (k + 1) .null) s).sink.cap = s.text.length + 5 * k + 4 ∧
      (pourElems L (List.replicate (k + 1) .null) s).sink.moved = s.moved + (2 * k + 1) * s.text.length + 5 * k * k + 4 * k := by
  induction k generalizing s with
  | zero =>
    obtain ⟨a1, a2, a3, a4⟩ := stingy_put hs hg h [0x6e, 0x75, 0x6c, 0x6c] (by simp) (by simpa using hm)
    have e : pourElems L (List.replicate (0 + 1) .null) s = L.put [0x6e, 0x75, 0x6c, 0x6c] s := by
      simp only [List.replicate, pourElems, Value.null, pour, Value.type]
      rw [andThen_ok a1]
      revert a1
      rcases L.put [0x6e, 0x75, 0x6c, 0x6c] s with ⟨r, q⟩
      intro a1
      cases a1; rfl
    rw [e]
    exact ⟨a1, by rw [a2]; simp, by rw [a3]; simp, by rw [a4]; omega⟩
  | succ k ih =>
    obtain ⟨a1, a2, a3, a4⟩ := stingy_put hs hg h [0x6e, 0x75, 0x6c, 0x6c] (by simp) (by simp; omega)
    have l1 : (L.put [0x6e, 0x75, 0x6c, 0x6c] s).sink.text.length = s.text.length + 4 := by rw [a2]; simp
    obtain ⟨b1, b2, b3, b4⟩ := stingy_put hs hg (by rw [l1, a3]; rfl) [0x2c] (by simp) (by rw [l1]; simp; omega)
    have l2 : (L.put [0x2c] (L.put [0x6e, 0x75, 0x6c, 0x6c] s).sink).sink.text.length = s.text.length + 5 := by rw [b2]; simp [l1]
    obtain ⟨c1, c2, c3, c4⟩ := ih (by rw [l2, b3, l1]; rfl) (by rw [l2]; omega)
    have e : pourElems L (List.replicate (k + 1 + 1) .null) s = pourElems L (List.replicate (k + 1) .null) (L.put [0x2c] (L.put [0x6e, 0x75, 0x6c, 0x6c] s).sink).sink := by
      rw [List.replicate_succ, pourElems]
      have p : pour L .null s = L.put [0x6e, 0x75, 0x6c, 0x6c] s := by simp only [Value.null, pour, Value.type]
      have q : (List.replicate (k + 1) Value.null).isEmpty = false := by simp
      rw [p, andThen_ok a1, q]
      simp only [Bool.false_eq_true, if_false]
      rw [andThen_ok b1]
    rw [e]
    refine ⟨c1, by rw [c2, l2]; omega, by rw [c3, l2]; omega, ?_⟩
    rw [c4, l2, b4, l1, a4]
    ring

/-- A string that grows by what is needed and no more would carry over five bytes for each of k elements, k times: `C97_cost` owes its bound to the library. -/
theorem C97_growth_needed (L : Str) (hs : ∀ c n, L.grow c n = n) (h0 : L.small = 0) (hg : L.Generous) (k : Nat) (hm : 5 * k + 6 ≤ L.max) :
    ((Value.arr .array (List.replicate (k + 1) .null)).dumpsS L).res = .ok () ∧ ((Value.arr .array (List.replicate (k + 1) .null)).dumpsS L).sink.text.length = 5 * k + 6 ∧
      5 * (k + 1) * (k + 1) ≤ ((Value.arr .array (List.replicate (k + 1) .null)).dumpsS L).sink.moved := by
  obtain ⟨a1, a2, a3, a4⟩ := stingy_put hs hg (s := L.empty) (by simp [Str.empty, h0]) [0x5b] (by simp) (by simp [Str.empty]; omega)
  have l1 : (L.put [0x5b] L.empty).sink.text.length = 1 := by rw [a2]; simp [Str.empty]
  obtain ⟨b1, b2, b3, b4⟩ := stingy_elems hs hg k (by rw [l1, a3]; rfl) (by rw [l1]; omega)
  obtain ⟨c1, c2, c3, c4⟩ := stingy_put hs hg (by rw [b2, b3]) [0x5d] (by simp) (by rw [b2, l1]; simp; omega)
  have e : (Value.arr .array (List.replicate (k + 1) .null)).dumpsS L = L.put [0x5d] (pourElems L (List.replicate (k + 1) .null) (L.put [0x5b] L.empty).sink).sink := by
    rw [dumpsS, pour, andThen_ok a1, andThen_ok b1]
  rw [e]
  refine ⟨c1, by rw [c2]; simp [b2, l1]; omega, ?_⟩
  rw [c4, b4, b2, l1, a4]
  have e0 : L.empty.moved = 0 ∧ L.empty.text.length = 0 := ⟨rfl, rfl⟩
  rw [e0.1, e0.2]
  have : 5 * (k + 1) * (k + 1) = 5 * k * k + 10 * k + 5 := by ring
  omega

example : ((Value.arr .array (List.replicate 100 .null)).dumpsS ⟨0, 10000, fun _ n => n, fun _ _ => true⟩).sink.moved = 50100 ∧
    ((Value.arr .array (List.replicate 100 .null)).dumpsS gnuStr).sink.moved = 945 := by decide +kernel

end Meojson
