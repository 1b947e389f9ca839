import Verif.Model.Storage
import Verif.Proofs.Simd
import Verif.Proofs.Ws

/-!
# Lemmas: contents in several pieces
-/

set_option autoImplicit false

namespace Meojson
open Spec

/-- The second result is the first or undefined. -/
def Res.Weak {α : Type} (r r' : Res α) : Prop := r' = .ub ∨ r' = r

theorem Res.Weak.rfl {α : Type} {r : Res α} : r.Weak r := .inr _root_.rfl

theorem Res.Weak.bind {α β : Type} {r r' : Res α} {f f' : α → Bytes → Res β} (h : r.Weak r') (hf : ∀ a s, (f a s).Weak (f' a s)) : (r.bind f).Weak (r'.bind f') := by
  rcases h with h | h
  · subst h; exact .inl _root_.rfl
  · subst h
    cases r' with
    | ok a s => exact hf a s
    | fail => exact .rfl
    | ub => exact .rfl
    | timeout => exact .rfl

section
variable {T : Traits} (hT : ∀ n, T.step ≤ n → T.whole n = true) (w : Nat → Bool)
include hT

theorem accelLoop_weak : ∀ (n : Nat) (s : Bytes), (accelLoop T n s).Weak (accelLoop { T with whole := w } n s)
  | 0, _ => .rfl
  | n + 1, s => by
    unfold accelLoop
    by_cases hs : s.length ≥ T.step
    · rw [if_pos hs, if_pos (show s.length ≥ ({ T with whole := w } : Traits).step from hs)]
      have e1 : scanBlock T s = some (T.scan (s.take T.step)) := by simp [scanBlock, Traits.scan, hT _ hs]; omega
      by_cases hw : w s.length = true
      · have e2 : scanBlock { T with whole := w } s = some (T.scan (s.take T.step)) := by simp [scanBlock, Traits.scan, hw]; omega
        rw [e1, e2]
        simp only
        by_cases hz : T.isAllZero (T.scan (s.take T.step)) = true
        · rw [if_pos hz, if_pos hz]; exact accelLoop_weak n _
        · rw [if_neg hz, if_neg hz]; exact .rfl
      · have e2 : scanBlock { T with whole := w } s = none := by simp [scanBlock, hw]
        rw [e2]; exact .inl rfl
    · rw [if_neg hs, if_neg (show ¬ s.length ≥ ({ T with whole := w } : Traits).step from hs)]; exact .rfl

end

/-- The configurations differ only in where the content lies. -/
inductive Pieces : Option Traits → Option Traits → Prop where
  | none : Pieces none none
  | some {T : Traits} (hT : ∀ n, T.step ≤ n → T.whole n = true) (w : Nat → Bool) : Pieces (some T) (some { T with whole := w })

section
variable {o o' : Option Traits} (ho : Pieces o o')
include ho

theorem accelStep_weak (s : Bytes) : (accelStep o s).Weak (accelStep o' s) := by
  cases ho with
  | none => exact .rfl
  | some hT w => exact (accelLoop_weak hT w _ s).bind fun _ _ => .rfl

theorem stringLoop_weak : ∀ (n : Nat) (result beg : Bytes) (pair : UInt16) (s : Bytes), (stringLoop o n result beg pair s).Weak (stringLoop o' n result beg pair s)
  | 0, _, _, _, _ => .rfl
  | _ + 1, _, _, _, [] => .rfl
  | n + 1, result, beg, pair, c₀ :: s₀ => by
    unfold stringLoop
    refine (accelStep_weak ho _).bind fun more cur => ?_
    split
    · exact .rfl
    · cases cur with
      | nil => exact .rfl
      | cons c s =>
        simp only
        split
        · exact .rfl
        · split
          · cases s with
            | nil => exact .rfl
            | cons d s' =>
              simp only
              split
              · exact .rfl
              · split
                · exact Res.Weak.rfl.bind fun r s'' => stringLoop_weak n _ _ _ _
                · split
                  · exact .rfl
                  · exact stringLoop_weak n _ _ _ _
          · split
            · exact .rfl
            · split
              · exact .rfl
              · split
                · exact .rfl
                · exact stringLoop_weak n _ _ _ _

theorem parseStdstring_weak (s : Bytes) : (parseStdstring o s).Weak (parseStdstring o' s) := by
  cases s with
  | nil => exact .rfl
  | cons c s =>
    simp only [parseStdstring]
    split
    · exact stringLoop_weak ho _ _ _ _ _
    · exact .rfl

theorem parseString_weak (s : Bytes) : (parseString o s).Weak (parseString o' s) := (parseStdstring_weak ho s).bind fun _ _ => .rfl

mutual
theorem parseValue_weak (j : Bool) : ∀ (n : Nat) (s : Bytes), (parseValue ⟨j, o⟩ n s).Weak (parseValue ⟨j, o'⟩ n s)
  | 0, _ => by simp only [parseValue]; exact .rfl
  | _ + 1, [] => by simp only [parseValue]; exact .rfl
  | n + 1, c :: s => by
    unfold parseValue
    split
    · exact .rfl
    split
    · exact .rfl
    split
    · exact .rfl
    split
    · exact parseString_weak ho _
    split
    · exact parseArray_weak j n _
    split
    · exact parseObject_weak j n _
    · exact .rfl
theorem parseArray_weak (j : Bool) : ∀ (n : Nat) (s : Bytes), (parseArray ⟨j, o⟩ n s).Weak (parseArray ⟨j, o'⟩ n s)
  | 0, _ => by simp only [parseArray]; exact .rfl
  | _ + 1, [] => by simp only [parseArray]; exact .rfl
  | n + 1, c :: s => by
    unfold parseArray
    split
    · exact .rfl
    · refine Res.Weak.rfl.bind fun more cur => ?_
      split
      · exact .rfl
      · cases cur with
        | nil => exact .rfl
        | cons d cur' =>
          simp only
          split
          · exact .rfl
          · exact (arrayLoop_weak j n _ _).bind fun _ _ => .rfl
theorem arrayLoop_weak (j : Bool) : ∀ (n : Nat) (vs : List Value) (s : Bytes), (arrayLoop ⟨j, o⟩ n vs s).Weak (arrayLoop ⟨j, o'⟩ n vs s)
  | 0, _, _ => by simp only [arrayLoop]; exact .rfl
  | n + 1, vs, s => by
    unfold arrayLoop
    refine Res.Weak.rfl.bind fun more cur => ?_
    split
    · exact .rfl
    · cases cur with
      | nil => exact .rfl
      | cons c s =>
        simp only
        split
        · exact .rfl
        · refine (parseValue_weak j n _).bind fun val cur => Res.Weak.rfl.bind fun more cur => ?_
          split
          · exact .rfl
          · cases cur with
            | nil => exact .rfl
            | cons c s =>
              simp only
              split
              · exact arrayLoop_weak j n _ _
              · exact .rfl
theorem parseObject_weak (j : Bool) : ∀ (n : Nat) (s : Bytes), (parseObject ⟨j, o⟩ n s).Weak (parseObject ⟨j, o'⟩ n s)
  | 0, _ => by simp only [parseObject]; exact .rfl
  | _ + 1, [] => by simp only [parseObject]; exact .rfl
  | n + 1, c :: s => by
    unfold parseObject
    split
    · exact .rfl
    · refine Res.Weak.rfl.bind fun more cur => ?_
      split
      · exact .rfl
      · cases cur with
        | nil => exact .rfl
        | cons d cur' =>
          simp only
          split
          · exact .rfl
          · exact (objectLoop_weak j n _ _).bind fun _ _ => .rfl
theorem objectLoop_weak (j : Bool) : ∀ (n : Nat) (ms : List (Bytes × Value)) (s : Bytes), (objectLoop ⟨j, o⟩ n ms s).Weak (objectLoop ⟨j, o'⟩ n ms s)
  | 0, _, _ => by simp only [objectLoop]; exact .rfl
  | n + 1, ms, s => by
    unfold objectLoop
    refine Res.Weak.rfl.bind fun more cur => ?_
    split
    · exact .rfl
    · cases cur with
      | nil => exact .rfl
      | cons c s =>
        simp only
        split
        · exact .rfl
        · refine (parseStdstring_weak ho _).bind fun key cur => Res.Weak.rfl.bind fun more cur => ?_
          split
          · exact .rfl
          · cases cur with
            | nil => exact .rfl
            | cons c s =>
              simp only
              split
              · exact .rfl
              · refine Res.Weak.rfl.bind fun more cur => ?_
                split
                · exact .rfl
                · refine (parseValue_weak j n _).bind fun val cur => Res.Weak.rfl.bind fun more cur => ?_
                  split
                  · exact .rfl
                  · split
                    · exact .rfl
                    · cases cur with
                      | nil => exact .rfl
                      | cons c s =>
                        simp only
                        split
                        · exact objectLoop_weak j n _ _
                        · exact .rfl
end

theorem parseRun_weak (j : Bool) (n : Nat) (s : Bytes) : (parseRun ⟨j, o⟩ n s).Weak (parseRun ⟨j, o'⟩ n s) := by
  unfold parseRun
  refine Res.Weak.rfl.bind fun more cur => ?_
  split
  · exact .rfl
  · cases cur with
    | nil => exact .rfl
    | cons c cur' =>
      simp only
      refine Res.Weak.bind ?_ fun _ _ => .rfl
      split
      · exact parseArray_weak ho j n _
      · split
        · exact parseObject_weak ho j n _
        · exact .rfl

end

end Meojson
