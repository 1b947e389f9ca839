import Verif.Model.Iterate
import Verif.Proofs.MapOps

/-!
# C81: elements can be erased while walking
-/

set_option autoImplicit false

namespace Meojson
open RawObject Iterate

/-- An array whose iterator variable 0 is `a.begin()`; the others are as given. -/
def Iterate.Arr.fresh (vs : List Value) (cap : Nat) (pos : Nat → Option Nat) : Arr := (Arr.mk vs cap pos).begin_ 0

/-- An object whose iterator variable 0 is `o.begin()`. -/
def Iterate.Obj.fresh (ms : List (Bytes × Value)) (pos : Nat → Option (Option Bytes)) : Obj := (Obj.mk ms pos).begin_ 0

/-- A loop that steps through the iterators and erases what fulfils a condition ends, and the others are left. -/
def C81Claim : Prop :=
  (∀ (p : Value → Bool) (vs : List Value) (cap : Nat) (pos : Nat → Option Nat), vs.length ≤ cap →
    ∃ n a, Arr.loop (Arr.eraseStep p) n (.fresh vs cap pos) = some (.ok a) ∧ a.elems = vs.filter fun v => !p v) ∧
  (∀ (p : Bytes × Value → Bool) (ms : List (Bytes × Value)) (pos : Nat → Option (Option Bytes)), Sorted ms →
    ∃ n o, Obj.loop (Obj.eraseStep p) n (.fresh ms pos) = some (.ok o) ∧ o.members = ms.filter fun m => !p m)

/-! ### Arrays -/

namespace Iterate.Arr

private theorem get_mid (pre post : List Value) (v : Value) : (pre ++ v :: post)[pre.length]? = some v := by simp

private theorem erase_mid (pre post : List Value) (v : Value) : (pre ++ v :: post).eraseIdx pre.length = pre ++ post := by
  induction pre with
  | nil => rfl
  | cons a pre ih => simp [ih]

private theorem naive_mid (p : Value → Bool) (cap : Nat) : ∀ (post pre : List Value) (pos : Nat → Option Nat), pos 0 = some pre.length →
    ∃ n, if post.any p then loop (eraseStep p) n ⟨pre ++ post, cap, pos⟩ = some .ub
      else ∃ a, loop (eraseStep p) n ⟨pre ++ post, cap, pos⟩ = some (.ok a) ∧ a.elems = pre ++ post ∧ ∀ y, y ≠ 0 → a.pos y = pos y
  | [], pre, pos, h => ⟨1, by simp [loop, atEnd, h]⟩
  | v :: post, pre, pos, h => by
    cases hp : p v with
    | true =>
      refine ⟨2, ?_⟩
      simp [hp, loop, atEnd, eraseStep, read, h, erase, Option.filter]
    | false =>
      obtain ⟨n, hn⟩ := naive_mid p cap post (pre ++ [v]) (fun y => if y = 0 then some (pre.length + 1) else pos y) (by simp)
      refine ⟨n + 1, ?_⟩
      have e : loop (eraseStep p) (n + 1) ⟨pre ++ v :: post, cap, pos⟩ =
          loop (eraseStep p) n ⟨pre ++ [v] ++ post, cap, fun y => if y = 0 then some (pre.length + 1) else pos y⟩ := by
        simp [loop, atEnd, h, eraseStep, read, hp, next, set]
      rw [e]
      simp only [List.any_cons, hp, Bool.false_or]
      split
      · rename_i h1; rw [if_pos h1] at hn; exact hn
      · rename_i h1
        rw [if_neg h1] at hn
        obtain ⟨a, h2, h3, h4⟩ := hn
        refine ⟨a, h2, by simpa using h3, fun y hy => ?_⟩
        rw [h4 y hy]; simp [hy]

private theorem again_mid (p : Value → Bool) (cap : Nat) : ∀ (post pre : List Value) (pos : Nat → Option Nat), pos 0 = some pre.length →
    ∃ n a, loop (againStep p) n ⟨pre ++ post, cap, pos⟩ = some (.ok a) ∧ a.elems = pre ++ post.filter fun v => !p v
  | [], pre, pos, h => ⟨1, by simp [loop, atEnd, h]⟩
  | v :: post, pre, pos, h => by
    cases hp : p v with
    | true =>
      obtain ⟨n, a, h1, h2⟩ := again_mid p cap post pre (fun y => if y = 0 then some pre.length else (pos y).filter (· < pre.length)) (by simp)
      refine ⟨n + 1, a, ?_, by simp [h2, hp]⟩
      rw [← h1]
      simp [loop, atEnd, h, againStep, read, hp, index, erase, jump, set, erase_mid]
    | false =>
      obtain ⟨n, a, h1, h2⟩ := again_mid p cap post (pre ++ [v]) (fun y => if y = 0 then some (pre.length + 1) else pos y) (by simp)
      refine ⟨n + 1, a, ?_, by simp [h2, hp]⟩
      rw [← h1]
      simp [loop, atEnd, h, againStep, read, hp, next, set]

private theorem index_mid (p : Value → Bool) : ∀ (post pre : List Value),
    ∃ n, byIndex p n pre.length (pre ++ post) = some (.ok (pre ++ post.filter fun v => !p v))
  | [], pre => ⟨1, by simp [byIndex, ArrayData.size]⟩
  | v :: post, pre => by
    cases hp : p v with
    | true =>
      obtain ⟨n, h⟩ := index_mid p post pre
      refine ⟨n + 1, ?_⟩
      have e : ¬ (pre.length + (post.length + 1) ≤ pre.length) := by omega
      simp [byIndex, ArrayData.size, ArrayData.index, hp, ArrayData.erase, Value.eraseElem, erase_mid, h, e]
    | false =>
      obtain ⟨n, h⟩ := index_mid p post (pre ++ [v])
      refine ⟨n + 1, ?_⟩
      simp [byIndex, ArrayData.size, ArrayData.index, hp]
      simpa using h

private theorem walk_mid (cap : Nat) : ∀ (post pre : List Value) (pos : Nat → Option Nat), pos 0 = some pre.length → pos 1 = some (pre ++ post).length →
    ∃ n a, forEach (fun _ a => a) n ⟨pre ++ post, cap, pos⟩ pre = some (.ok (a, pre ++ post)) ∧ a.elems = pre ++ post
  | [], pre, pos, h, h' => ⟨1, by simp [forEach, same, h, h']⟩
  | v :: post, pre, pos, h, h' => by
    obtain ⟨n, a, h1, h2⟩ := walk_mid cap post (pre ++ [v]) (fun y => if y = 0 then some (pre.length + 1) else pos y) (by simp) (by simp [h'])
    refine ⟨n + 1, a, ?_, by simpa using h2⟩
    simp only [List.append_assoc, List.cons_append, List.nil_append] at h1
    simp [forEach, same, h, h', read, next, set, h1]

end Iterate.Arr

/-- `a.erase(it)` for an iterator that is valid. At the end nothing happens, and the answer is `false`; else this element goes, the iterators in front of it stay what they are, and there
is none left to it or behind it, the one that was given included. -/
theorem C81_erase_array (a : Arr) (x i : Nat) (hx : a.pos x = some i) (hi : i ≤ a.elems.length) :
    (i = a.elems.length → a.erase x = .ok (false, a)) ∧
    (i < a.elems.length → ∃ b, a.erase x = .ok (true, b) ∧ b.elems = a.elems.take i ++ a.elems.drop (i + 1) ∧ b.elems = (ArrayData.erase a.elems i).1 ∧
      ∀ y j, b.pos y = some j ↔ a.pos y = some j ∧ j < i) := by
  constructor
  · rintro rfl
    simp [Arr.erase, hx]
  · intro h
    refine ⟨_, by simp only [Arr.erase, hx, if_neg (Nat.ne_of_lt h)]; rfl, ?_, ?_, ?_⟩
    · exact List.eraseIdx_eq_take_drop_succ ..
    · simp [ArrayData.erase, Value.eraseElem, Nat.not_le.2 h]
    · intro y j
      simp [Option.filter_eq_some_iff]

example : (Arr.mk [.null] 1 fun _ => some 0).pos 3 = some 0 ∧ 0 ≤ (Arr.mk [.null] 1 fun _ => some 0).elems.length := ⟨rfl, by decide⟩

/-- The loop on an array, exactly: it is undefined as soon as something is to be erased. `erase` says `bool`, so there is no iterator to go on with. -/
theorem C81_array_partial (p : Value → Bool) (vs : List Value) (cap : Nat) (pos : Nat → Option Nat) :
    ∃ n, if vs.any p then Arr.loop (Arr.eraseStep p) n (.fresh vs cap pos) = some .ub
      else ∃ a, Arr.loop (Arr.eraseStep p) n (.fresh vs cap pos) = some (.ok a) ∧ a.elems = vs := by
  obtain ⟨n, h⟩ := Iterate.Arr.naive_mid p cap vs [] (fun y => if y = 0 then some 0 else pos y) (by simp)
  refine ⟨n, ?_⟩
  split
  · rename_i h1; rw [if_pos h1] at h; exact h
  · rename_i h1; rw [if_neg h1] at h; obtain ⟨a, h2, h3, -⟩ := h; exact ⟨a, h2, h3⟩

theorem C81_refuted : ¬ C81Claim := by
  intro h
  obtain ⟨n, a, h, -⟩ := h.1 (fun _ => true) [.null] 1 (fun _ => none) (by decide)
  match n with
  | 0 => simp [Arr.loop] at h
  | 1 => simp [Arr.loop, Arr.fresh, Arr.begin_, Arr.set, Arr.atEnd, Arr.eraseStep, Arr.read, Arr.erase, Option.filter] at h
  | n + 2 => simp [Arr.loop, Arr.fresh, Arr.begin_, Arr.set, Arr.atEnd, Arr.eraseStep, Arr.read, Arr.erase, Option.filter] at h

/-- With the position remembered, or with positions instead of iterators, it works. -/
theorem C81_position (p : Value → Bool) (vs : List Value) (cap : Nat) (pos : Nat → Option Nat) :
    (∃ n a, Arr.loop (Arr.againStep p) n (.fresh vs cap pos) = some (.ok a) ∧ a.elems = vs.filter fun v => !p v) ∧
    (∃ n, Arr.byIndex p n 0 vs = some (.ok (vs.filter fun v => !p v))) := by
  constructor
  · simpa [Arr.fresh, Arr.begin_, Arr.set] using Iterate.Arr.again_mid p cap vs [] (fun y => if y = 0 then some 0 else pos y) (by simp)
  · simpa using Iterate.Arr.index_mid p vs []

/-- A range-for that changes nothing sees every element once, in order; backwards, in the opposite order. -/
theorem C81_walk_array (vs : List Value) (cap : Nat) (pos : Nat → Option Nat) :
    (∃ n a, Arr.forEach (fun _ a => a) n ((Arr.fresh vs cap pos).end_ 1) [] = some (.ok (a, vs)) ∧ a.elems = vs) ∧
    (Arr.mk vs cap pos).backward vs.length = .ok vs.reverse := by
  constructor
  · simpa [Arr.fresh, Arr.begin_, Arr.end_, Arr.set] using Iterate.Arr.walk_mid cap vs [] (fun y => if y = 1 then some vs.length else if y = 0 then some 0 else pos y) (by simp) (by simp)
  · have : ∀ i, i ≤ vs.length → (Arr.mk vs cap pos).backward i = .ok (vs.take i).reverse := by
      intro i
      induction i with
      | zero => simp [Arr.backward]
      | succ i ih =>
        intro hi
        have h1 : vs[i]? = some vs[i] := List.getElem?_eq_getElem hi
        rw [Arr.backward, show (Arr.mk vs cap pos).elems[i]? = some vs[i] from h1]
        simp only [ih (by omega), Out.bind]
        rw [List.take_succ_eq_append_getElem hi, List.reverse_append]
        rfl
    simpa using this vs.length (Nat.le_refl _)

/-- Appending in a range-for over the same array is undefined, with and without room. -/
theorem C81_push (vs : List Value) (cap extra : Nat) (v : Value) (pos : Nat → Option Nat) (h : vs ≠ []) :
    ∃ n, Arr.forEach (fun _ a => a.push extra v) n ((Arr.fresh vs cap pos).end_ 1) [] = some .ub := by
  cases vs with
  | nil => exact absurd rfl h
  | cons w ws =>
    refine ⟨2, ?_⟩
    by_cases hc : ws.length + 1 < cap
    · simp [Arr.forEach, Arr.same, Arr.fresh, Arr.begin_, Arr.end_, Arr.set, Arr.read, Arr.push, hc, Arr.next, Option.filter]
    · simp [Arr.forEach, Arr.same, Arr.fresh, Arr.begin_, Arr.end_, Arr.set, Arr.read, Arr.push, hc, Arr.next]

example : [Value.null] ≠ [] := by simp

/-! ### Objects -/

namespace Iterate.Obj

variable {β : Type}

private theorem lt_of_mid {pre post : List (Bytes × β)} {m : Bytes × β} (h : Sorted (pre ++ m :: post)) : ∀ x ∈ pre, x.1 < m.1 :=
  fun _ hx => (List.pairwise_append.1 h).2.2 _ hx _ (by simp)

private theorem not_lt_self (k : Bytes) : bytesLt k k = false := by rw [bytesLt_false_iff]; exact Std.le_refl k

private theorem before {a b : Bytes} (h : a < b) : bytesLt a b = true ∧ bytesLt b a = false :=
  ⟨(bytesLt_iff a b).2 h, (bytesLt_false_iff b a).2 (Std.le_of_lt h)⟩

private theorem erase_mid (post : List (Bytes × β)) (k : Bytes) (v : β) : ∀ (pre : List (Bytes × β)), (∀ x ∈ pre, x.1 < k) →
    (RawObject.erase k (pre ++ (k, v) :: post)).1 = pre ++ post
  | [], _ => by simp [RawObject.erase, not_lt_self]
  | m :: pre, h => by
    have := before (h m (by simp))
    simp [RawObject.erase, this.1, this.2, erase_mid post k v pre fun x hx => h x (by simp [hx])]

private theorem assign_mid (post : List (Bytes × β)) (k : Bytes) (v w : β) : ∀ (pre : List (Bytes × β)), (∀ x ∈ pre, x.1 < k) →
    RawObject.insertOrAssign k w (pre ++ (k, v) :: post) = pre ++ (k, w) :: post
  | [], _ => by simp [RawObject.insertOrAssign, not_lt_self]
  | m :: pre, h => by
    have := before (h m (by simp))
    simp [RawObject.insertOrAssign, this.1, this.2, assign_mid post k v w pre fun x hx => h x (by simp [hx])]

private theorem after_mid (post : List (Bytes × Value)) (k : Bytes) (v : Value) : ∀ (pre : List (Bytes × Value)), (∀ x ∈ pre, x.1 < k) →
    after k (pre ++ (k, v) :: post) = post.head?.map Prod.fst
  | [], _ => by simp [after]
  | m :: pre, h => by
    have : m.1 ≠ k := fun e => Std.lt_irrefl (e ▸ h m (by simp))
    simp [after, this, after_mid post k v pre fun x hx => h x (by simp [hx])]

private theorem find_mid {pre post : List (Bytes × β)} {k : Bytes} {v : β} (h : Sorted (pre ++ (k, v) :: post)) :
    RawObject.find k (pre ++ (k, v) :: post) = some v := (find_eq_some h k v).2 (by simp)

private theorem erase_loop (p : Bytes × Value → Bool) : ∀ (post pre : List (Bytes × Value)) (pos : Nat → Option (Option Bytes)), Sorted (pre ++ post) →
    pos 0 = some (post.head?.map Prod.fst) →
    ∃ n o, loop (eraseStep p) n ⟨pre ++ post, pos⟩ = some (.ok o) ∧ (o.members = pre ++ post.filter fun m => !p m) ∧
      ∀ y, 1 < y → o.pos y = (pos y).filter fun k => k.all fun k => !(post.any fun m => m.1 = k && p m)
  | [], pre, pos, hs, h => ⟨1, _, by simp only [loop, atEnd, h]; rfl, by simp, by
      intro y _
      show pos y = _
      cases pos y with
      | none => rfl
      | some k => cases k <;> simp [Option.filter]⟩
  | (k, v) :: post, pre, pos, hs, h => by
    have hlt := lt_of_mid hs
    have hk : pos 0 = some (some k) := by simpa using h
    cases hp : p (k, v) with
    | true =>
      obtain ⟨n, o, h1, h2, h3⟩ := erase_loop p post pre
        (fun y => (if y = 0 then some (post.head?.map Prod.fst) else if y = 1 then some (some k) else pos y).filter (· ≠ some k))
        (hs.sublist (by simp)) (by
          cases post with
          | nil => simp
          | cons m post =>
            have : m.1 ≠ k := fun e => by
              have := (List.pairwise_cons.1 (List.pairwise_append.1 hs).2.1).1 m (by simp)
              rw [e] at this; exact Std.lt_irrefl this
            simp [this])
      refine ⟨n + 1, o, ?_, by simp [h2, hp], fun y hy => ?_⟩
      · rw [← h1]
        simp [loop, atEnd, hk, eraseStep, read, find_mid hs, hp, copy, set, next, after_mid post k v pre hlt, erase, erase_mid post k v pre hlt]
      · rw [h3 y hy]
        have e0 : y ≠ 0 := by omega
        have e1 : y ≠ 1 := by omega
        simp only [e0, e1, if_false]
        cases pos y with
        | none => rfl
        | some l =>
          cases l with
          | none => simp [Option.filter]
          | some l =>
            by_cases e : l = k
            · subst e; simp [hp, Option.filter]
            · have e' : k ≠ l := fun h => e h.symm
              have e'' : decide (k = l) = false := decide_eq_false e'
              simp only [Option.filter, List.any_cons, Option.all_some, e'', Bool.false_and, Bool.false_or, ne_eq, Option.some.injEq, e, not_false_eq_true, decide_true, if_true]
    | false =>
      obtain ⟨n, o, h1, h2, h3⟩ := erase_loop p post (pre ++ [(k, v)]) (fun y => if y = 0 then some (post.head?.map Prod.fst) else pos y)
        (by simpa using hs) (by simp)
      refine ⟨n + 1, o, ?_, by simp [h2, hp], fun y hy => ?_⟩
      · rw [← h1]
        simp [loop, atEnd, hk, eraseStep, read, find_mid hs, hp, set, next, after_mid post k v pre hlt]
      · rw [h3 y hy]
        have e0 : y ≠ 0 := by omega
        simp only [e0, if_false, List.any_cons, hp, Bool.and_false, Bool.false_or]

private theorem naive_loop (p : Bytes × Value → Bool) : ∀ (post pre : List (Bytes × Value)) (pos : Nat → Option (Option Bytes)), Sorted (pre ++ post) →
    pos 0 = some (post.head?.map Prod.fst) →
    ∃ n, if post.any p then loop (naiveStep p) n ⟨pre ++ post, pos⟩ = some .ub
      else ∃ o, loop (naiveStep p) n ⟨pre ++ post, pos⟩ = some (.ok o) ∧ o.members = pre ++ post
  | [], pre, pos, hs, h => ⟨1, by simp [loop, atEnd, h]⟩
  | (k, v) :: post, pre, pos, hs, h => by
    have hlt := lt_of_mid hs
    have hk : pos 0 = some (some k) := by simpa using h
    cases hp : p (k, v) with
    | true =>
      refine ⟨1, ?_⟩
      simp [hp, loop, atEnd, hk, naiveStep, read, find_mid hs, erase, next, Option.filter]
    | false =>
      obtain ⟨n, hn⟩ := naive_loop p post (pre ++ [(k, v)]) (fun y => if y = 0 then some (post.head?.map Prod.fst) else pos y) (by simpa using hs) (by simp)
      refine ⟨n + 1, ?_⟩
      have e : loop (naiveStep p) (n + 1) ⟨pre ++ (k, v) :: post, pos⟩ =
          loop (naiveStep p) n ⟨pre ++ [(k, v)] ++ post, fun y => if y = 0 then some (post.head?.map Prod.fst) else pos y⟩ := by
        simp [loop, atEnd, hk, naiveStep, read, find_mid hs, hp, set, next, after_mid post k v pre hlt]
      rw [e]
      simp only [List.any_cons, hp, Bool.false_or]
      simpa using hn

private theorem walk_loop : ∀ (post pre : List (Bytes × Value)) (pos : Nat → Option (Option Bytes)), Sorted (pre ++ post) →
    pos 0 = some (post.head?.map Prod.fst) → pos 1 = some none →
    ∃ n o, forEach (fun _ o => o) n ⟨pre ++ post, pos⟩ pre = some (.ok (o, pre ++ post)) ∧ o.members = pre ++ post
  | [], pre, pos, hs, h, h' => ⟨1, by simp [forEach, same, h, h']⟩
  | (k, v) :: post, pre, pos, hs, h, h' => by
    have hk : pos 0 = some (some k) := by simpa using h
    obtain ⟨n, o, h1, h2⟩ := walk_loop post (pre ++ [(k, v)]) (fun y => if y = 0 then some (post.head?.map Prod.fst) else pos y) (by simpa using hs)
      (by simp) (by simp [h'])
    refine ⟨n + 1, o, ?_, by simpa using h2⟩
    simp only [List.append_assoc, List.cons_append, List.nil_append] at h1
    simp [forEach, same, hk, h', read, find_mid hs, next, set, after_mid post k v pre (lt_of_mid hs), h1]

end Iterate.Obj

/-- The loop on an object: it ends with what does not fulfil the condition, and iterators to these members that the program has elsewhere are still good. -/
theorem C81_object_partial (p : Bytes × Value → Bool) (ms : List (Bytes × Value)) (pos : Nat → Option (Option Bytes)) (hs : Sorted ms) :
    ∃ n o, Obj.loop (Obj.eraseStep p) n (.fresh ms pos) = some (.ok o) ∧ (o.members = ms.filter fun m => !p m) ∧
      ∀ y k, 1 < y → (o.pos y = some k ↔ pos y = some k ∧ ∀ l, k = some l → ¬ ∃ v, (l, v) ∈ ms ∧ p (l, v) = true) := by
  obtain ⟨n, o, h1, h2, h3⟩ := Iterate.Obj.erase_loop p ms [] (fun y => if y = 0 then some (ms.head?.map Prod.fst) else pos y) hs (by simp)
  refine ⟨n, o, h1, by simpa using h2, fun y k hy => ?_⟩
  rw [h3 y hy]
  have e0 : y ≠ 0 := by omega
  simp only [e0, if_false, Option.filter_eq_some_iff]
  cases k with
  | none => simp
  | some k =>
    simp only [Option.all_some, Bool.not_eq_true', List.any_eq_false, Bool.and_eq_true, decide_eq_true_eq, Option.some.injEq, forall_eq']
    constructor
    · rintro ⟨h4, h5⟩
      refine ⟨h4, ?_⟩
      rintro ⟨v, h6, h7⟩
      exact h5 (k, v) h6 ⟨rfl, h7⟩
    · rintro ⟨h4, h5⟩
      refine ⟨h4, ?_⟩
      rintro ⟨k', v⟩ h6 ⟨rfl, h7⟩
      exact h5 ⟨v, h6, h7⟩

example : Sorted [([0x61], Value.null), ([0x62], Value.null)] := by simp [Sorted]; decide

/-- Stepping after erasing is undefined for objects as well. -/
theorem C81_object_naive (p : Bytes × Value → Bool) (ms : List (Bytes × Value)) (pos : Nat → Option (Option Bytes)) (hs : Sorted ms) :
    ∃ n, if ms.any p then Obj.loop (Obj.naiveStep p) n (.fresh ms pos) = some .ub
      else ∃ o, Obj.loop (Obj.naiveStep p) n (.fresh ms pos) = some (.ok o) ∧ o.members = ms := by
  obtain ⟨n, h⟩ := Iterate.Obj.naive_loop p ms [] (fun y => if y = 0 then some (ms.head?.map Prod.fst) else pos y) hs (by simp)
  exact ⟨n, by simpa [Obj.fresh, Obj.begin_, Obj.set] using h⟩

/-- `o.erase(it)` for an iterator that is valid: as `o.erase(it->first)`, and only the iterators to this member are lost. -/
theorem C81_erase_object (o : Obj) (x : Nat) (hs : Sorted o.members) :
    (o.pos x = some none → o.erase x = .ok (false, o)) ∧
    (∀ k v, o.pos x = some (some k) → (k, v) ∈ o.members →
      ∃ b, o.erase x = .ok (true, b) ∧ b.members = o.members.filter (fun m => m.1 ≠ k) ∧ (ObjectData.erase o.members k) = (b.members, true) ∧
        ∀ y l, b.pos y = some l ↔ o.pos y = some l ∧ l ≠ some k) := by
  constructor
  · intro h
    simp [Obj.erase, h]
  · intro k v h hm
    obtain ⟨pre, post, e⟩ := List.append_of_mem hm
    have hs' := hs
    rw [e] at hs'
    have hlt := Iterate.Obj.lt_of_mid hs'
    have h1 : (RawObject.erase k o.members).1 = pre ++ post := by rw [e]; exact Iterate.Obj.erase_mid post k v pre hlt
    refine ⟨_, by simp only [Obj.erase, h]; rfl, ?_, ?_, ?_⟩
    · rw [h1, e]
      have h2 : pre.filter (fun m => m.1 ≠ k) = pre := List.filter_eq_self.2 fun m hm => by
        have := hlt m hm
        simp only [ne_eq, decide_eq_true_eq]; rintro rfl; exact Std.lt_irrefl this
      have h3 : post.filter (fun m => m.1 ≠ k) = post := List.filter_eq_self.2 fun m hm => by
        have := (List.pairwise_cons.1 (List.pairwise_append.1 hs').2.1).1 m hm
        simp only [ne_eq, decide_eq_true_eq]; rintro rfl; exact Std.lt_irrefl this
      rw [List.filter_append, List.filter_cons_of_neg (by simp), h2, h3]
    · have : (RawObject.erase k o.members).2 = true := by
        rw [erase_snd, (find_eq_some hs k v).2 hm]; rfl
      exact Prod.ext rfl this
    · intro y l
      simp [Option.filter_eq_some_iff]

example : Sorted (Obj.mk [([0x61], .null)] fun _ => some (some [0x61])).members ∧ (Obj.mk [([0x61], .null)] fun _ => some (some [0x61])).pos 0 = some (some [0x61]) := by
  constructor
  · simp [Sorted]
  · rfl

/-- A range-for over an object sees every member once, and its keys in ascending order (`Sorted` is what the order of a `std::map` is). -/
theorem C81_walk_object (ms : List (Bytes × Value)) (pos : Nat → Option (Option Bytes)) (hs : Sorted ms) :
    ∃ n o, Obj.forEach (fun _ o => o) n ((Obj.fresh ms pos).end_ 1) [] = some (.ok (o, ms)) ∧ o.members = ms := by
  simpa [Obj.fresh, Obj.begin_, Obj.end_, Obj.set] using Iterate.Obj.walk_loop ms [] (fun y => if y = 1 then some none else if y = 0 then some (ms.head?.map Prod.fst) else pos y) hs (by simp) (by simp)

/-- Assigning through an iterator, and inserting: exactly one member changes or appears, and what the other iterators refer to stays what it is. -/
theorem C81_assign (o : Obj) (x : Nat) (k : Bytes) (v w : Value) (hs : Sorted o.members) (hx : o.pos x = some (some k)) (hm : (k, v) ∈ o.members) :
    (∃ b, o.write x w = .ok b ∧ b.members = o.members.map (fun m => if m.1 = k then (k, w) else m) ∧ b.read x = .ok (k, w) ∧
      ∀ y l u, o.read y = .ok (l, u) → l ≠ k → b.read y = .ok (l, u)) ∧
    (∀ l u, l ≠ k → (o.emplace l u).read x = .ok (k, v)) := by
  obtain ⟨pre, post, e⟩ := List.append_of_mem hm
  have hs' := hs
  rw [e] at hs'
  have hlt := Iterate.Obj.lt_of_mid hs'
  have h1 : insertOrAssign k w o.members = pre ++ (k, w) :: post := by rw [e]; exact Iterate.Obj.assign_mid post k v w pre hlt
  have hi (l : Bytes) (u : Value) (x : Bytes) : find x (insertOrAssign l u o.members) = if x = l then some u else find x o.members := find_insertOrAssign ..
  constructor
  · refine ⟨_, by simp only [Obj.write, hx]; rfl, ?_, ?_, ?_⟩
    · rw [h1, e]
      have keep (l : List (Bytes × Value)) (h : ∀ m ∈ l, m.1 ≠ k) : l.map (fun m => if m.1 = k then (k, w) else m) = l := by
        exact (List.map_congr_left (g := id) fun m hm => if_neg (h m hm)).trans (List.map_id l)
      have h2 := keep pre fun m hm => by
        have := hlt m hm
        rintro rfl; exact Std.lt_irrefl this
      have h3 := keep post fun m hm => by
        have := (List.pairwise_cons.1 (List.pairwise_append.1 hs').2.1).1 m hm
        rintro rfl; exact Std.lt_irrefl this
      rw [List.map_append, List.map_cons, h2, h3]
      simp
    · simp [Obj.read, hx, hi]
    · intro y l u h hl
      simp only [Obj.read] at h ⊢
      split at h
      · rename_i l' hy
        split at h
        · rename_i u' hu
          cases h
          simp [hi, hl, hu]
        · cases h
      · cases h
  · intro l u hl
    have : find k o.members = some v := (find_eq_some hs k v).2 hm
    simp [Obj.emplace, Obj.read, hx, hi, this, hl.symm]

example : Sorted (Obj.mk [([0x61], .null)] fun _ => some (some [0x61])).members ∧ ([0x61], Value.null) ∈ (Obj.mk [([0x61], .null)] fun _ => some (some [0x61])).members := by
  constructor
  · simp [Sorted]
  · simp

/-! ### What an iterator may be used for -/

/-- The uses of an array iterator: what each gives, and when it is undefined. None throws. -/
theorem C81_use_array (a : Arr) (x y i : Nat) (v : Value) :
    (∀ i, a.pos x = some i → i < a.elems.length →
      (∃ h, a.read x = .ok (a.elems[i]'h)) ∧ (∃ b, a.write x v = .ok b ∧ b.elems = a.elems.set i v ∧ b.pos = a.pos ∧ b.capacity = a.capacity) ∧
      ∃ b, a.next x = .ok b ∧ b.elems = a.elems ∧ ∀ z, b.pos z = if z = x then some (i + 1) else a.pos z) ∧
    ((∀ i, a.pos x = some i → a.elems.length ≤ i) → a.read x = .ub ∧ a.write x v = .ub ∧ a.next x = .ub) ∧
    (∀ i, a.pos x = some (i + 1) → ∃ b, a.prev x = .ok b ∧ b.elems = a.elems ∧ ∀ z, b.pos z = if z = x then some i else a.pos z) ∧
    ((∀ i, a.pos x ≠ some (i + 1)) → a.prev x = .ub) ∧
    (i ≤ a.elems.length → ∃ b, a.jump x i = .ok b ∧ b.elems = a.elems ∧ ∀ z, b.pos z = if z = x then some i else a.pos z) ∧
    (a.elems.length < i → a.jump x i = .ub) ∧
    (∀ i j, a.pos x = some i → a.pos y = some j → a.same x y = .ok (decide (i = j)) ∧ a.index x = .ok i ∧ a.atEnd x = .ok (decide (i = a.elems.length)) ∧
      ∃ b, a.copy y x = .ok b ∧ b.elems = a.elems ∧ ∀ z, b.pos z = if z = y then some i else a.pos z) ∧
    (a.pos x = none → a.same x y = .ub ∧ a.same y x = .ub ∧ a.index x = .ub ∧ a.atEnd x = .ub ∧ a.copy y x = .ub ∧ a.erase x = .ub) := by
  refine ⟨fun i h hi => ⟨⟨hi, by simp [Arr.read, h, hi]⟩, ⟨{ a with elems := a.elems.set i v }, by simp [Arr.write, h, hi], rfl, rfl, rfl⟩, ⟨a.set x (i + 1), by simp [Arr.next, h, hi], rfl, fun z => rfl⟩⟩,
    fun h => ?_, fun i h => ⟨a.set x i, by simp [Arr.prev, h], rfl, fun z => rfl⟩, fun h => ?_, fun h => ⟨a.set x i, by simp [Arr.jump, h], rfl, fun z => rfl⟩,
    fun h => by simp [Arr.jump, Nat.not_le.2 h],
    fun i j h1 h2 => ⟨by simp [Arr.same, h1, h2], by simp [Arr.index, h1], by simp [Arr.atEnd, h1], a.set y i, by simp [Arr.copy, h1], rfl, fun z => rfl⟩,
    fun h => ?_⟩
  · cases hp : a.pos x with
    | none => simp [Arr.read, Arr.write, Arr.next, hp]
    | some j => simp [Arr.read, Arr.write, Arr.next, hp, Nat.not_lt.2 (h j hp)]
  · cases hp : a.pos x with
    | none => simp [Arr.prev, hp]
    | some j => cases j with
      | zero => simp [Arr.prev, hp]
      | succ j => exact absurd hp (h j)
  · cases hy : a.pos y <;> simp [Arr.same, Arr.index, Arr.atEnd, Arr.copy, Arr.erase, h, hy]

example : (Arr.mk [.null] 1 fun _ => some 0).pos 0 = some 0 ∧ 0 < (Arr.mk [.null] 1 fun _ => some 0).elems.length := ⟨rfl, by decide⟩

/-- Valid iterators stay inside, and the room is enough: appending, erasing and clearing keep both. With room, appending loses only the iterators at the end; without, all. -/
theorem C81_room (a : Arr) (extra : Nat) (v : Value) (hc : a.elems.length ≤ a.capacity) (hp : ∀ x i, a.pos x = some i → i ≤ a.elems.length) :
    ((a.push extra v).elems = a.elems ++ [v] ∧ (a.push extra v).elems.length ≤ (a.push extra v).capacity ∧
      (∀ x i, (a.push extra v).pos x = some i ↔ a.elems.length < a.capacity ∧ a.pos x = some i ∧ i < a.elems.length) ∧
      (a.push extra v).capacity = if a.elems.length < a.capacity then a.capacity else a.elems.length + 1 + extra) ∧
    (∀ x r b, a.erase x = .ok (r, b) → b.elems.length ≤ b.capacity ∧ b.capacity = a.capacity ∧ ∀ y i, b.pos y = some i → i ≤ b.elems.length) ∧
    (a.clear.elems = [] ∧ a.clear.capacity = a.capacity ∧ ∀ x, a.clear.pos x = none) := by
  refine ⟨?_, fun x r b h => ?_, rfl, rfl, fun _ => rfl⟩
  · by_cases h : a.elems.length < a.capacity
    · simp only [Arr.push, if_pos h, true_and]
      refine ⟨by simp; omega, fun x i => ?_, trivial⟩
      simp [h, Option.filter_eq_some_iff]
    · simp only [Arr.push, if_neg h, true_and]
      refine ⟨by simp, fun x i => ?_, trivial⟩
      simp [h]
  · simp only [Arr.erase] at h
    split at h
    · rename_i i hi
      have := hp x i hi
      split at h
      · cases h; exact ⟨hc, rfl, hp⟩
      · rename_i hne
        cases h
        have hl : (a.elems.eraseIdx i).length = a.elems.length - 1 := List.length_eraseIdx_of_lt (by omega)
        refine ⟨by show (a.elems.eraseIdx i).length ≤ a.capacity; omega, rfl, fun y j hj => ?_⟩
        simp only [Option.filter_eq_some_iff, decide_eq_true_eq] at hj
        show j ≤ (a.elems.eraseIdx i).length
        omega
    · cases h

example : (Arr.mk [.null] 1 fun _ => some 1).elems.length ≤ (Arr.mk [.null] 1 fun _ => some 1).capacity ∧ ∀ x i, (Arr.mk [.null] 1 fun _ => some 1).pos x = some i → i ≤ 1 := by
  constructor
  · decide
  · intro x i h; cases h; decide

/-- The uses of an object iterator. -/
theorem C81_use_object (o : Obj) (x y : Nat) (w : Value) (hs : Sorted o.members) :
    (∀ k v, o.pos x = some (some k) → (k, v) ∈ o.members → o.read x = .ok (k, v) ∧
      ∀ l, o.pos y = some l → o.same x y = .ok (decide (some k = l)) ∧ o.atEnd x = .ok false) ∧
    (o.pos x = some none → o.read x = .ub ∧ o.write x w = .ub ∧ o.next x = .ub ∧ o.atEnd x = .ok true ∧ ∀ l, o.pos y = some l → o.same x y = .ok (decide (none = l))) ∧
    (∀ l, o.pos x = some l → ∃ b, o.copy y x = .ok b ∧ b.members = o.members ∧ ∀ z, b.pos z = if z = y then some l else o.pos z) ∧
    (o.pos x = none → o.read x = .ub ∧ o.write x w = .ub ∧ o.next x = .ub ∧ o.erase x = .ub ∧ o.atEnd x = .ub ∧ o.copy y x = .ub ∧ o.same x y = .ub ∧ o.same y x = .ub) := by
  refine ⟨fun k v h hm => ⟨?_, fun l hl => ⟨by simp [Obj.same, h, hl], by simp [Obj.atEnd, h]⟩⟩, fun h => ⟨by simp [Obj.read, h], by simp [Obj.write, h], by simp [Obj.next, h],
    by simp [Obj.atEnd, h], fun l hl => by simp [Obj.same, h, hl]⟩, fun l h => ⟨o.set y l, by simp [Obj.copy, h], rfl, fun z => rfl⟩, fun h => ?_⟩
  · simp [Obj.read, h, (find_eq_some hs k v).2 hm]
  · cases hy : o.pos y <;> simp [Obj.read, Obj.write, Obj.next, Obj.erase, Obj.atEnd, Obj.copy, Obj.same, h, hy]

end Meojson
