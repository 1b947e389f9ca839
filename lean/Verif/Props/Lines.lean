import Verif.Spec.Lines
import Verif.Props.Serialize
import Verif.Props.Parse
import Mathlib.Data.List.Forall2

/-!
# C109: a file with one document on each line
-/

set_option autoImplicit false

namespace Meojson
open Spec

theorem lines_cons {l : Text} (h : 0x0a ∉ l) (t : Text) : lines (l ++ 0x0a :: t) = l :: lines t := by
  induction l with
  | nil => simp [lines]
  | cons c l ih =>
    have hc : c ≠ 0x0a := fun e => h (by simp [e])
    rw [List.cons_append, lines, if_neg hc, ih fun e => h (List.mem_cons_of_mem _ e)]

theorem lines_one {l : Text} (h : 0x0a ∉ l) (hne : l ≠ []) : lines l = [l] := by
  induction l with
  | nil => exact absurd rfl hne
  | cons c l ih =>
    have hc : c ≠ 0x0a := fun e => h (by simp [e])
    rw [lines, if_neg hc]
    cases l with
    | nil => rfl
    | cons d l => rw [ih (fun e => h (List.mem_cons_of_mem _ e)) (by simp)]

theorem lines_file {ts : List Text} (h : ∀ t ∈ ts, 0x0a ∉ t) : lines (lineFile ts) = ts := by
  induction ts with
  | nil => rfl
  | cons t ts ih =>
    rw [lineFile, List.flatMap_cons, List.append_assoc, List.singleton_append, lines_cons (h t (by simp))]
    exact congrArg (t :: ·) (ih fun u hu => h u (List.mem_cons_of_mem _ hu))

private theorem written_line {v : Value} {t : Text} (hv : v.Json) (h : v.dumps = .ok t) : 0x0a ∉ t := fun hc => by
  have := (C11_one_line v t hv h _ hc).1
  revert this; decide

private theorem prefix_line {p t r : Text} (h : p <+: t ++ 0x0a :: r) : p <+: t ∨ ∃ q, p = t ++ 0x0a :: q ∧ q <+: r := by
  rcases List.prefix_or_prefix_of_prefix h (List.prefix_append t _) with h1 | ⟨q, rfl⟩
  · exact .inl h1
  · rw [List.prefix_append_right_inj] at h
    cases q with
    | nil => exact .inl (by simp)
    | cons c q =>
      rw [List.cons_prefix_cons] at h
      obtain ⟨rfl, h⟩ := h
      exact .inr ⟨q, rfl, h⟩

private theorem torn_file {a : Accel} {c : Bool} {vs : List Value} {ts : List Text} (h : List.Forall₂ (fun v t => v.Json ∧ v.IsContainer ∧ v.dumps = .ok t) vs ts) : ∀ {p : Text}, p <+: lineFile ts →
    ∃ k ≤ vs.length, (∀ m ≤ vs.length, lineFile (ts.take m) <+: p → m ≤ k) ∧
      (∃ rest, (lines p).map (parser ⟨c, a.traits⟩) = (vs.take k).map some ++ rest ∧ (rest = [] ∨ rest = [none])) ∧
      ∀ q, ∃ rest, (lines (p ++ 0x0a :: q)).map (parser ⟨c, a.traits⟩) = (vs.take k).map some ++ rest ++ (lines q).map (parser ⟨c, a.traits⟩) ∧ (rest = [] ∨ rest = [none]) := by
  have empty : parser ⟨c, a.traits⟩ [] = none := by cases c <;> cases a <;> rfl
  induction h with
  | nil =>
    intro p hp
    rw [show p = [] from List.prefix_nil.1 hp]
    refine ⟨0, Nat.le_refl _, fun m hm _ => hm, ⟨[], rfl, .inl rfl⟩, fun q => ⟨[none], ?_, .inr rfl⟩⟩
    rw [List.nil_append, lines, if_pos rfl, List.map_cons, empty]
    rfl
  | @cons v t vs ts hv _ ih =>
    intro p hp
    obtain ⟨hj, hc, hd⟩ := hv
    have hl := written_line hj hd
    have read : parser ⟨c, a.traits⟩ t = some v := by
      obtain ⟨t', h1, h2, h3⟩ := C08_roundtrip a v hj hc
      rw [hd] at h1
      cases h1
      cases c
      · exact h2
      · exact h3
    rw [lineFile, List.flatMap_cons, List.append_assoc, List.singleton_append] at hp
    have long : ∀ m p, p <+: t → lineFile ((t :: ts).take m) <+: p → m = 0 := by
      intro m p h1 h2
      cases m with
      | zero => rfl
      | succ m =>
        have := (h2.trans h1).length_le
        simp [lineFile] at this
        omega
    rcases prefix_line hp with hp | ⟨q, rfl, hq⟩
    · have hlp : 0x0a ∉ p := fun h => hl (hp.subset h)
      by_cases e : p = t
      · subst e
        have hne : p ≠ [] := by
          rintro rfl
          rw [empty] at read
          cases read
        refine ⟨1, by simp, fun m _ h => by rw [long m p (List.prefix_refl _) h]; omega, ⟨[], ?_, .inl rfl⟩, fun q => ⟨[], ?_, .inl rfl⟩⟩
        · rw [lines_one hl hne, List.map_cons, read]; rfl
        · rw [lines_cons hl, List.map_cons, read]; simp
      · have torn : parser ⟨c, a.traits⟩ p = none := C17_truncated a c v hj hc none t p hd hp e
        refine ⟨0, Nat.zero_le _, fun m _ h => by rw [long m p hp h]; omega, ?_, fun q => ⟨[none], ?_, .inr rfl⟩⟩
        · by_cases hne : p = []
          · subst hne; exact ⟨[], rfl, .inl rfl⟩
          · exact ⟨[none], by rw [lines_one hlp hne, List.map_cons, torn]; rfl, .inr rfl⟩
        · rw [lines_cons hlp, List.map_cons, torn]; simp
    · obtain ⟨k, h1, h2, ⟨rest, h3, h4⟩, h5⟩ := ih hq
      refine ⟨k + 1, by simpa using h1, fun m hm h => ?_, ⟨rest, ?_, h4⟩, fun r => ?_⟩
      · cases m with
        | zero => omega
        | succ m =>
          rw [List.take_succ_cons, lineFile, List.flatMap_cons, List.append_assoc, List.singleton_append, List.prefix_append_right_inj, List.cons_prefix_cons] at h
          have := h2 m (by simpa using hm) h.2
          omega
      · rw [lines_cons hl, List.map_cons, read, h3]; rfl
      · obtain ⟨rest, h6, h7⟩ := h5 r
        exact ⟨rest, by rw [List.append_assoc, List.cons_append, lines_cons hl, List.map_cons, read, h6]; rfl, h7⟩

/-- Documents are written with dumps, one to a line, and are read line by line: the same documents, by either parser. -/
theorem C109_read (a : Accel) (c : Bool) (vs : List Value) (ts : List Text) (h : List.Forall₂ (fun v t => v.Json ∧ v.IsContainer ∧ v.dumps = .ok t) vs ts) :
    (lines (lineFile ts)).map (parser ⟨c, a.traits⟩) = vs.map some := by
  have clean : ∀ t ∈ ts, 0x0a ∉ t := by
    induction h with
    | nil => exact fun _ h => nomatch h
    | cons h _ ih =>
      intro t ht
      rcases List.mem_cons.1 ht with rfl | ht
      · exact written_line h.1 h.2.2
      · exact ih t ht
  rw [lines_file clean]
  clear clean
  induction h with
  | nil => rfl
  | @cons v t vs ts h _ ih =>
    obtain ⟨t', h1, h2, h3⟩ := C08_roundtrip a v h.1 h.2.1
    rw [h.2.2] at h1
    cases h1
    rw [List.map_cons, List.map_cons, ih]
    cases c
    · exact congrArg (· :: vs.map some) h2
    · exact congrArg (· :: vs.map some) h3

/-- Two such files, one after the other, are read as the documents of the first and then those of the second. -/
theorem C109_joined (a : Accel) (c : Bool) (vs ws : List Value) (ts us : List Text) (h : List.Forall₂ (fun v t => v.Json ∧ v.IsContainer ∧ v.dumps = .ok t) vs ts)
    (h' : List.Forall₂ (fun v t => v.Json ∧ v.IsContainer ∧ v.dumps = .ok t) ws us) :
    (lines (lineFile ts ++ lineFile us)).map (parser ⟨c, a.traits⟩) = vs.map some ++ ws.map some := by
  have e : lineFile ts ++ lineFile us = lineFile (ts ++ us) := by simp [lineFile]
  rw [e, C109_read a c (vs ++ ws) (ts ++ us) (List.rel_append h h'), List.map_append]

/-- If the writer is stopped at any byte, the reader gets the first documents, among them all whose line is complete, and after them at most one line that is rejected. -/
theorem C109_torn (a : Accel) (c : Bool) (vs : List Value) (ts : List Text) (h : List.Forall₂ (fun v t => v.Json ∧ v.IsContainer ∧ v.dumps = .ok t) vs ts) (p : Text) (hp : p <+: lineFile ts) :
    ∃ k ≤ vs.length, (∀ m ≤ vs.length, lineFile (ts.take m) <+: p → m ≤ k) ∧
      ∃ rest, (lines p).map (parser ⟨c, a.traits⟩) = (vs.take k).map some ++ rest ∧ (rest = [] ∨ rest = [none]) := by
  obtain ⟨k, h1, h2, h3, -⟩ := torn_file (a := a) (c := c) h hp
  exact ⟨k, h1, h2, h3⟩

/-- A writer that starts again with a line feed loses nothing more: all that it writes is read, and between the old and the new there is at most one line that is rejected. -/
theorem C109_resumed (a : Accel) (c : Bool) (vs ws : List Value) (ts us : List Text) (h : List.Forall₂ (fun v t => v.Json ∧ v.IsContainer ∧ v.dumps = .ok t) vs ts)
    (h' : List.Forall₂ (fun v t => v.Json ∧ v.IsContainer ∧ v.dumps = .ok t) ws us) (p : Text) (hp : p <+: lineFile ts) :
    ∃ k ≤ vs.length, (∀ m ≤ vs.length, lineFile (ts.take m) <+: p → m ≤ k) ∧
      ∃ rest, (lines (p ++ 0x0a :: lineFile us)).map (parser ⟨c, a.traits⟩) = (vs.take k).map some ++ rest ++ ws.map some ∧ (rest = [] ∨ rest = [none]) := by
  obtain ⟨k, h1, h2, -, h3⟩ := torn_file (a := a) (c := c) h hp
  obtain ⟨rest, h4, h5⟩ := h3 (lineFile us)
  rw [C109_read a c ws us h'] at h4
  exact ⟨k, h1, h2, rest, h4, h5⟩

/-- Without the line feed a document can be read that nobody wrote. The first writer stops after two bytes of `["x"]`; the second writes `[",","]/"]`; what is read is `["[",","]`. -/
theorem C109_needs_newline : ∃ v w x : Value, ∃ t u p : Text, v.dumps = .ok t ∧ w.dumps = .ok u ∧ p <+: t ∧ x ≠ v ∧ x ≠ w ∧ (lines (p ++ lineFile [u])).map (parse none) = [some x] := by
  refine ⟨.arr .array [.str .string (ascii "x")], .arr .array [.str .string (ascii ","), .str .string (ascii "]/")], .arr .array [.str .string (ascii "["), .str .string (ascii ",")],
    ascii "[\"x\"]", ascii "[\",\",\"]/\"]", ascii "[\"", ?_⟩
  decide +kernel

example : Value.dumps (.arr .array [.str .string (ascii "x\n")]) = .ok (ascii "[\"x\\n\"]") ∧
    lineFile [ascii "[]", ascii "[1]"] = ascii "[]\n[1]\n" ∧ lines (ascii "[]\n[1") = [ascii "[]", ascii "[1"] ∧
    (lines (ascii "[]\n[1")).map (parse none) = [some (.arr .array []), none] ∧
    (lines (ascii "[]\n[1\n{}\n")).map (parse none) = [some (.arr .array []), none, some (.obj .object [])] := by decide +kernel

example : List.Forall₂ (fun v t => v.Json ∧ v.IsContainer ∧ v.dumps = .ok t) [Value.arr .array []] [ascii "[]"] :=
  .cons ⟨by simp [Value.Json, Value.Wf, Value.WfAll], .inl rfl, by decide +kernel⟩ .nil

end Meojson
