import Verif.Proofs.Effort
import Verif.Proofs.Map
import Verif.Proofs.Num
import Verif.Spec.Effort
import Verif.Spec.Work

/-!
# What is counted is no less than what is left at the end
-/

set_option autoImplicit false

namespace Meojson
open Spec Value

/-- With `W` and `M` spent before, an outcome is no larger than what it took. -/
def Least {α : Type} (X Y : α → Nat) (W M : Nat) (r : Spent α) : Prop := ∀ a rest, r.res = .ok a rest → X a ≤ W + r.work ∧ Y a ≤ M + r.asked

namespace Least
variable {α β : Type} {X Y : α → Nat} {X' Y' : β → Nat} {W M : Nat}

theorem nothing {r : Res α} (h : ∀ a s, r ≠ .ok a s) : Least X Y W M (.free r) := fun a s e => absurd e (h a s)
theorem fail : Least X Y W M (.free .fail) := nothing (by simp)
theorem ub : Least X Y W M (.free .ub) := nothing (by simp)
theorem ret {a : α} {s : Bytes} (h1 : X a ≤ W) (h2 : Y a ≤ M) : Least X Y W M (.free (.ok a s)) := by
  intro b t e; cases e; exact ⟨Nat.le_trans h1 (Nat.le_add_right ..), Nat.le_trans h2 (Nat.le_add_right ..)⟩
theorem pay {w m : Nat} {r : Spent α} (h : Least X Y (W + w) (M + m) r) : Least X Y W M (r.pay w m) := by
  intro a s e
  have := h a s e
  simp only [Spent.pay]; omega
theorem up {W' M' : Nat} {r : Spent α} (h : Least X Y W' M' r) (h1 : W' ≤ W) (h2 : M' ≤ M) : Least X Y W M r := by
  intro a s e
  have := h a s e
  omega
theorem bind {r : Spent α} {f : α → Bytes → Spent β} (h : Least X Y 0 0 r) (hf : ∀ a s, Least X' Y' (W + X a) (M + Y a) (f a s)) : Least X' Y' W M (r.bind f) := by
  intro b t e
  cases hr : r.res with
  | ok a s =>
    simp only [Spent.bind, hr] at e ⊢
    have h1 := h a s hr
    have h2 := hf a s b t e
    omega
  | fail => simp [Spent.bind, hr] at e
  | ub => simp [Spent.bind, hr] at e
  | timeout => simp [Spent.bind, hr] at e
theorem sub {r : Spent α} (h : Least X Y W M r) : Least (fun a => X a - 1) Y W M r := by
  intro a s e
  have := h a s e
  exact ⟨Nat.le_trans (Nat.sub_le ..) this.1, this.2⟩
theorem free {r : Res α} {f : α → Bytes → Spent β} (hf : ∀ a s, Least X' Y' W M (f a s)) : Least X' Y' W M ((Spent.free r).bind f) := by
  refine bind (X := fun _ => 0) (Y := fun _ => 0) (fun _ _ _ => ⟨Nat.zero_le _, Nat.zero_le _⟩) hf
theorem look {cur : Bytes} {f : UInt8 → Bytes → Spent α} (h : ∀ c s, Least X Y W M (f c s)) : Least X Y W M (match cur with | [] => .free .ub | c :: s => f c s) := by
  cases cur
  · exact ub
  · exact h _ _
end Least

variable {L : Lib}

/-- The sizes of a library. -/
def Lib.sizes (L : Lib) : Sizes := ⟨L.small, L.value, L.node, L.box⟩

theorem room_least {grow : Nat → Nat → Nat} (hg : ∀ c n, c < n → n ≤ grow c n) {cap size m : Nat} (h : size ≤ cap) :
    size + m ≤ room grow cap size m ∧ cap ≤ room grow cap size m ∧ (room grow cap size m = cap ∨ larger grow cap size m = room grow cap size m) := by
  unfold room larger
  split
  · exact ⟨by omega, by omega, .inl rfl⟩
  · have := hg cap (size + m) (by omega)
    exact ⟨by omega, by omega, .inr rfl⟩

theorem append_least (hg : ∀ c n, c < n → n ≤ L.growText c n) {cap size m : Nat} (h : size ≤ cap) (hs : L.small ≤ cap) :
    size + m ≤ (L.append cap size m).cap ∧ L.small ≤ (L.append cap size m).cap ∧ m ≤ (L.append cap size m).work ∧
      ∀ M, (L.small < cap → cap + 1 ≤ M) → L.small < (L.append cap size m).cap → (L.append cap size m).cap + 1 ≤ M + (L.append cap size m).asked := by
  simp only [Lib.append, room, larger]
  split
  · exact ⟨by omega, by omega, by omega, fun M h h' => by have := h h'; omega⟩
  · have := hg cap (size + m) (by omega)
    exact ⟨by omega, by omega, by omega, fun M h h' => by omega⟩

theorem pushes_least (hg : ∀ c n, c < n → n ≤ L.growText c n) (k : Nat) {cap size : Nat} (h : size ≤ cap) (hs : L.small ≤ cap) :
    size + k ≤ (L.pushes k cap size).cap ∧ L.small ≤ (L.pushes k cap size).cap ∧ k ≤ (L.pushes k cap size).work ∧
      ∀ M, (L.small < cap → cap + 1 ≤ M) → L.small < (L.pushes k cap size).cap → (L.pushes k cap size).cap + 1 ≤ M + (L.pushes k cap size).asked := by
  induction k generalizing cap size with
  | zero => exact ⟨h, hs, Nat.le_refl _, fun M h h' => Nat.le_trans (h h') (Nat.le_add_right ..)⟩
  | succ k ih =>
    obtain ⟨a1, a2, a3, a4⟩ := append_least hg (m := 1) h hs
    obtain ⟨b1, b2, b3, b4⟩ := ih a1 a2
    simp only [Lib.pushes]
    refine ⟨by omega, b2, by omega, fun M h h' => ?_⟩
    have := b4 _ (a4 M h) h'
    omega

theorem stringLoopE_least (hg : ∀ c n, c < n → n ≤ L.growText c n) {accel : Option Traits} (n cap : Nat) (result beg : Bytes) (p : UInt16) (s : Bytes) (W M : Nat)
    (hc : result.length ≤ cap) (hs : L.small ≤ cap) (hW : result.length ≤ W) (hM : L.small < cap → cap + 1 ≤ M) :
    Least (fun t => t.length + 1) (fun t => L.sizes.text t) W M (stringLoopE L accel n cap result beg p s) := by
  induction n generalizing cap result beg p s W M with
  | zero => exact .nothing (by simp)
  | succ n ih =>
    cases s with
    | nil => exact .fail
    | cons c₀ s₀ =>
      simp only [stringLoopE]
      refine .free fun more cur => ?_
      split
      · exact .fail
      · cases cur with
        | nil => exact .ub
        | cons c s =>
          simp only
          split
          · exact .fail
          · obtain ⟨g1, g2, g3, g4⟩ := append_least hg (m := (between beg (c :: s)).length) hc hs
            replace g4 := g4 M hM
            generalize hgr : L.append cap result.length (between beg (c :: s)).length = g at g1 g2 g3 g4 ⊢
            have hlen : (result ++ between beg (c :: s)).length = result.length + (between beg (c :: s)).length := List.length_append
            split
            · cases s with
              | nil => exact .pay .fail
              | cons d s =>
                refine .pay ?_
                simp only
                split
                · exact .fail
                · split
                  · refine .free fun r t => ?_
                    rw [hlen]
                    obtain ⟨q1, q2, q3, q4⟩ := pushes_least hg r.2.length g1 g2
                    refine .pay (ih _ _ _ _ _ _ _ ?_ q2 ?_ (q4 _ g4)) <;> rw [List.length_append, hlen] <;> omega
                  · cases simpleEscape d with
                    | none => exact .fail
                    | some e =>
                      simp only
                      rw [hlen]
                      obtain ⟨q1, q2, q3, q4⟩ := pushes_least hg 1 g1 g2
                      refine .pay (ih _ _ _ _ _ _ _ ?_ q2 ?_ (q4 _ g4)) <;> rw [List.length_append, hlen, List.length_singleton] <;> omega
            · split
              · split
                · exact .fail
                · refine .pay (.ret ?_ ?_)
                  · rw [hlen]; omega
                  · simp only [Lib.sizes, Sizes.text, hlen]
                    by_cases hl : result.length + (between beg (c :: s)).length ≤ L.small
                    · rw [if_pos hl]; exact Nat.zero_le _
                    · rw [if_neg hl]; have := g4 (by omega); omega
              · split
                · exact .fail
                · split
                  · exact .fail
                  · exact ih _ _ _ _ _ _ _ hc hs hW hM

theorem parseStdstringE_least (hg : ∀ c n, c < n → n ≤ L.growText c n) {accel : Option Traits} (s : Bytes) :
    Least (fun t => t.length + 1) (fun t => L.sizes.text t) 0 0 (parseStdstringE L accel s) := by
  cases s with
  | nil => exact .ub
  | cons c s =>
    simp only [parseStdstringE]
    split
    · exact stringLoopE_least hg _ _ _ _ _ _ _ _ (Nat.zero_le _) (Nat.le_refl _) (Nat.le_refl _) (fun h => absurd h (Nat.lt_irrefl _))
    · exact .fail

theorem weightAll_append (vs ws : List Value) : weightAll (vs ++ ws) = weightAll vs + weightAll ws := by
  induction vs with
  | nil => simp [weightAll]
  | cons v vs ih => simp only [List.cons_append, weightAll, ih]; omega

theorem footprintAll_append (z : Sizes) (vs ws : List Value) : footprintAll z (vs ++ ws) = footprintAll z vs + footprintAll z ws := by
  induction vs with
  | nil => simp [footprintAll]
  | cons v vs ih => simp only [List.cons_append, footprintAll, ih]; omega

theorem weightMembers_perm {ms ns : List (Bytes × Value)} (h : ms.Perm ns) : weightMembers ms = weightMembers ns := by
  induction h with
  | nil => rfl
  | cons x _ ih => obtain ⟨k, v⟩ := x; simp only [weightMembers, ih]
  | swap x y => obtain ⟨k, v⟩ := x; obtain ⟨k', v'⟩ := y; simp only [weightMembers]; omega
  | trans _ _ ih1 ih2 => rw [ih1, ih2]

theorem footprintMembers_perm (z : Sizes) {ms ns : List (Bytes × Value)} (h : ms.Perm ns) : footprintMembers z ms = footprintMembers z ns := by
  induction h with
  | nil => rfl
  | cons x _ ih => obtain ⟨k, v⟩ := x; simp only [footprintMembers, ih]
  | swap x y => obtain ⟨k, v⟩ := x; obtain ⟨k', v'⟩ := y; simp only [footprintMembers]; omega
  | trans _ _ ih1 ih2 => rw [ih1, ih2]

theorem madeText_least (r : Res Value) (h : ∀ v s, r = .ok v s → ∃ t text, v = .str t text) : Least weight (footprint L.sizes) 0 0 (madeText r) := by
  intro v s e
  rw [madeText_res] at e
  obtain ⟨t, text, rfl⟩ := h v s e
  subst e
  simp only [madeText, weight, footprint, Sizes.text]
  refine ⟨by omega, ?_⟩
  split <;> omega

theorem boolean_text {s r : Bytes} {v : Value} (h : parseBoolean s = .ok v r) : ∃ t text, v = .str t text := by
  cases s with
  | nil => cases h
  | cons c s =>
    simp only [parseBoolean] at h
    split at h
    · obtain ⟨_, _, _, e⟩ := Res.bind_eq_ok.1 h
      cases e; exact ⟨_, _, rfl⟩
    · split at h
      · obtain ⟨_, _, _, e⟩ := Res.bind_eq_ok.1 h
        cases e; exact ⟨_, _, rfl⟩
      · cases h

/-- The hypothesis for the recursion. -/
structure LeastAt (L : Lib) (cfg : Cfg) (n : Nat) : Prop where
  value : ∀ s, Least (fun v => weight v - 1) (footprint L.sizes) 0 0 (parseValueE L cfg n s)
  array : ∀ s, Least weight (footprint L.sizes) 0 0 (parseArrayE L cfg n s)
  arrayLoop : ∀ cap acc s, acc.length ≤ cap → Least weightAll (fun vs => L.value * vs.length + footprintAll L.sizes vs) (weightAll acc) (L.value * cap + footprintAll L.sizes acc) (arrayLoopE L cfg n cap acc s)
  object : ∀ s, Least weight (footprint L.sizes) 0 0 (parseObjectE L cfg n s)
  objectLoop : ∀ acc s, Least weightMembers (footprintMembers L.sizes) (weightMembers acc) (footprintMembers L.sizes acc) (objectLoopE L cfg n acc s)

theorem leastAt (hg : ∀ c n, c < n → n ≤ L.growText c n) (he : ∀ c n, c < n → n ≤ L.growElems c n) (cfg : Cfg) (n : Nat) : LeastAt L cfg n := by
  induction n with
  | zero => constructor <;> intros <;> simp only [parseValueE, parseArrayE, arrayLoopE, parseObjectE, objectLoopE] <;> exact .nothing (by simp)
  | succ n ih =>
    constructor
    · intro s
      cases s with
      | nil => simp only [parseValueE]; exact .ub
      | cons c s =>
        simp only [parseValueE]
        split
        · intro v t e
          simp only [Spent.free, parseNull] at e
          obtain ⟨_, _, _, e⟩ := Res.bind_eq_ok.1 e
          cases e
          simp [weight, footprint, Sizes.text, Value.null]
        · split
          · exact (madeText_least _ fun v t e => boolean_text e).sub
          · split
            · exact (madeText_least _ fun v t e => let ⟨x, _, _, h⟩ := parseNumber_sound e; ⟨_, x, h⟩).sub
            · split
              · refine .bind (parseStdstringE_least hg _) fun str s' => .pay (.ret ?_ ?_)
                · simp only [weight]; omega
                · simp only [footprint]; omega
              · split
                · exact (ih.array _).sub
                · split
                  · exact (ih.object _).sub
                  · exact .fail
    · intro s
      cases s with
      | nil => simp only [parseArrayE]; exact .ub
      | cons c s =>
        simp only [parseArrayE]
        split
        · exact .fail
        · refine .free fun more cur => ?_
          split
          · exact .fail
          · refine .look fun d cur' => ?_
            split
            · exact .pay (.ret (by simp [weight, weightAll, Value.ofArray]) (by simp [footprint, footprintAll, Value.ofArray, Lib.sizes]))
            · refine .bind ((ih.arrayLoop 0 [] _ (Nat.le_refl _)).up (by simp [weightAll]) (by simp [footprintAll])) fun result cur => ?_
              refine .free fun more cur => ?_
              split
              · exact .fail
              · refine .look fun d cur' => ?_
                split
                · refine .pay (.ret ?_ ?_)
                  · simp only [weight, Value.ofArray]; omega
                  · simp only [footprint, Value.ofArray, Lib.sizes]; omega
                · exact .fail
    · intro cap acc s hc
      simp only [arrayLoopE]
      refine .free fun more cur => ?_
      split
      · exact .fail
      · refine .look fun c s => ?_
        split
        · refine .ret (Nat.le_refl _) ?_
          have := Nat.mul_le_mul_left L.value hc
          omega
        · refine .bind (ih.value _) fun val cur => ?_
          refine .free fun more cur => ?_
          split
          · exact .fail
          · refine .look fun c s => .pay ?_
            obtain ⟨r1, r2, r3⟩ := room_least he (m := 1) hc
            have hw : weightAll (acc ++ [val]) ≤ weightAll acc + (weight val - 1) + (1 + carried cap acc.length 1) := by
              simp only [weightAll_append, weightAll]; omega
            have hf : footprintAll L.sizes (acc ++ [val]) = footprintAll L.sizes acc + footprint L.sizes val := by
              simp only [footprintAll_append, footprintAll]; omega
            have hm : L.value * room L.growElems cap acc.length 1 + footprintAll L.sizes (acc ++ [val]) ≤
                L.value * cap + footprintAll L.sizes acc + footprint L.sizes val + L.value * larger L.growElems cap acc.length 1 := by
              rcases r3 with h | h <;> rw [hf, h] <;> omega
            have hl : (acc ++ [val]).length = acc.length + 1 := List.length_append
            split
            · exact (ih.arrayLoop _ _ _ (by rw [hl]; exact r1)).up hw hm
            · refine .ret hw (Nat.le_trans (Nat.add_le_add_right (Nat.mul_le_mul_left _ ?_) _) hm)
              rw [hl]; exact r1
    · intro s
      cases s with
      | nil => simp only [parseObjectE]; exact .ub
      | cons c s =>
        simp only [parseObjectE]
        split
        · exact .fail
        · refine .free fun more cur => ?_
          split
          · exact .fail
          · refine .look fun d cur' => ?_
            split
            · exact .pay (.ret (by simp [weight, weightMembers, Value.ofObject]) (by simp [footprint, footprintMembers, Value.ofObject, Lib.sizes]))
            · refine .bind ((ih.objectLoop [] _).up (by simp [weightMembers]) (by simp [footprintMembers])) fun result cur => ?_
              refine .free fun more cur => ?_
              split
              · exact .fail
              · refine .look fun d cur' => ?_
                split
                · refine .pay (.ret ?_ ?_)
                  · simp only [weight, Value.ofObject]; omega
                  · simp only [footprint, Value.ofObject, Lib.sizes]; omega
                · exact .fail
    · intro acc s
      simp only [objectLoopE]
      refine .free fun more cur => ?_
      split
      · exact .fail
      · refine .look fun c s => ?_
        split
        · exact .ret (Nat.le_refl _) (Nat.le_refl _)
        · refine .bind (parseStdstringE_least hg _) fun key cur => ?_
          refine .free fun more cur => ?_
          split
          · exact .fail
          · refine .look fun c s => ?_
            split
            · exact .fail
            · refine .free fun more cur => ?_
              split
              · exact .fail
              · refine .bind (ih.value _) fun val cur => ?_
                refine .free fun more cur => ?_
                split
                · exact .fail
                · refine .pay ?_
                  split
                  · exact .fail
                  · next he =>
                    have hp := RawObject.emplace_fst_perm (by simpa using he)
                    have hw := weightMembers_perm hp
                    have hf := footprintMembers_perm L.sizes hp
                    simp only [weightMembers] at hw
                    simp only [footprintMembers] at hf
                    have hn : L.sizes.node = L.node := rfl
                    refine .look fun c s => ?_
                    split
                    · exact (ih.objectLoop _ _).up (by omega) (by omega)
                    · exact .ret (by omega) (by omega)

theorem parseRunE_least (hg : ∀ c n, c < n → n ≤ L.growText c n) (he : ∀ c n, c < n → n ≤ L.growElems c n) (cfg : Cfg) (n : Nat) (s : Bytes) :
    Least weight (footprint L.sizes) 0 0 (parseRunE L cfg n s) := by
  simp only [parseRunE]
  refine .free fun more cur => ?_
  split
  · exact .fail
  · refine .look fun c cur' => ?_
    refine .bind (X := weight) (Y := footprint L.sizes) ?_ fun v cur => .free fun more cur => ?_
    · split
      · exact (leastAt hg he cfg n).array _
      · split
        · exact (leastAt hg he cfg n).object _
        · exact .fail
    · split
      · exact .fail
      · exact .pay (.ret (by omega) (by omega))

end Meojson
