import Verif.Model.ParseHeap
import Verif.Proofs.HeapMerge

/-! The parser with memory does what the parser without memory does, and owns what it should. -/

set_option autoImplicit false

namespace Meojson.Mem
open Stores

/-- Compared with the outcome `p` without memory: the same, and what has been allocated since `h` is what the result owns; or out of memory, with nothing left behind. -/
def Agrees {α β : Type} (R : Cells → β → α → List Addr → Prop) (oom : Addr → Bool) (h : Heap) (p : Res β) : PRes α → Prop
  | .ok g x s => ∃ v B, p = .ok v s ∧ R g.cell v x B ∧ Grown h g B
  | .fail g => p = .fail ∧ Grown h g []
  | .oom g => Grown h g [] ∧ ∃ a, h.next ≤ a ∧ a < g.next ∧ oom a = true
  | .ub => p = .ub
  | .timeout => p = .timeout

theorem Grown.perm {h g : Heap} {A B : List Addr} (hg : Grown h g A) (hp : A.Perm B) : Grown h g B :=
  ⟨hg.next, fun b hb => hg.fresh b (hp.mem_iff.2 hb), hp.nodup_iff.1 hg.nodup, fun a ha => hg.old a fun hb => ha (hp.mem_iff.1 hb)⟩

theorem Grown.still {h0 h g : Heap} {A : List Addr} (h1 : Grown h0 h A) (h2 : Grown h g []) : Grown h0 g A := by
  simpa using h1.trans h2

theorem RepL.grown {h g : Heap} {vs : List Value} {xs : List HVal} {A B : List Addr} {h0 : Heap} (hr : RepL h.cell vs xs A) (h1 : Grown h0 h A) (h2 : Grown h g B) : RepL g.cell vs xs A :=
  hr.frame fun a ha => h2.old a fun hb => by have := (h1.fresh a ha).2; have := (h2.fresh a hb).1; omega

/-- Destroying what has been allocated since `h0`. -/
theorem destroy_owned {h0 h : Heap} (cl : h0.Clean) {vs : List Value} {own : List HVal} {A : List Addr} (hr : RepL h.cell vs own A) (hg : Grown h0 h A) :
    ∃ g, destroyList (destroyVal h.fuel) h own = some g ∧ Grown h0 g [] ∧ g.next = h.next := by
  obtain ⟨g, h1, h2, h3⟩ := hr.destroy hg.nodup (n := h.fuel) (Nat.lt_succ_of_le (nodup_length_le hg.nodup fun a ha => (hg.fresh a ha).2))
  refine ⟨g, h1, ⟨h2 ▸ hg.next, by simp, List.nodup_nil, fun a _ => ?_⟩, h2⟩
  rw [h3]
  split
  · next ha => exact (cl a (hg.fresh a ha).1).symm
  · next ha => exact hg.old a ha

section
variable {α β γ δ : Type} {R : Cells → β → α → List Addr → Prop} {S : Cells → δ → γ → List Addr → Prop} {oom : Addr → Bool} {h0 h : Heap} (cl : h0.Clean) {vs : List Value} {own : List HVal}
  {A : List Addr} (hr : RepL h.cell vs own A) (hg : Grown h0 h A)
include cl hr hg

theorem leave_agrees {p : Res β} (hp : p = .fail) : Agrees R oom h0 p (leave own h) := by
  obtain ⟨g, h1, h2, -⟩ := destroy_owned cl hr hg
  simp only [leave, h1]
  exact ⟨hp, h2⟩

theorem raise_agrees {p : Res β} (ho : ∃ a, h0.next ≤ a ∧ a < h.next ∧ oom a = true) : Agrees R oom h0 p (raise own h) := by
  obtain ⟨g, h1, h2, h3⟩ := destroy_owned cl hr hg
  simp only [raise, h1]
  exact ⟨h2, by rw [h3]; exact ho⟩

theorem still_agrees {ε : Type} {p : Res ε} {f : ε → Bytes → Res β} {k : ε → Bytes → PRes α} (hk : ∀ a s, p = .ok a s → Agrees R oom h0 (f a s) (k a s)) :
    Agrees R oom h0 (p.bind f) (still own h p k) := by
  cases p with
  | ok a s => exact hk a s rfl
  | fail => exact leave_agrees cl hr hg rfl
  | ub => rfl
  | timeout => rfl

theorem still_agrees_ok {p : Res β} {k : β → Bytes → PRes α} (hk : ∀ a s, p = .ok a s → Agrees R oom h0 (.ok a s) (k a s)) : Agrees R oom h0 p (still own h p k) := by
  have := still_agrees (f := .ok) cl hr hg hk
  cases p <;> exact this

theorem alloc_agrees {p : Res β} {k : Heap → PRes α} (hk : RepL h.bump.cell vs own A → Grown h0 h.bump A → Agrees R oom h0 p (k h.bump)) : Agrees R oom h0 p (alloc oom own h k) := by
  have hr' : RepL h.bump.cell vs own A := hr
  have hg' : Grown h0 h.bump A := hg.still (Grown.bump h)
  unfold alloc
  split
  · next ho => exact raise_agrees cl hr' hg' ⟨h.next, hg.next, Nat.lt_succ_self _, ho⟩
  · exact hk hr' hg'

theorem during_agrees {p : Res δ} {r : PRes γ} (ha : Agrees S oom h p r) {f : δ → Bytes → Res β} {k : Heap → γ → Bytes → PRes α}
    (hk : ∀ g x s v B, r = .ok g x s → p = .ok v s → S g.cell v x B → Grown h g B → RepL g.cell vs own A → Grown h0 g (A ++ B) → Agrees R oom h0 (f v s) (k g x s)) :
    Agrees R oom h0 (p.bind f) (during own r k) := by
  cases r with
  | ok g x s =>
    obtain ⟨v, B, h1, h2, h3⟩ := ha
    rw [h1]
    exact hk g x s v B rfl h1 h2 h3 (hr.grown hg h3) (hg.trans h3)
  | fail g =>
    obtain ⟨h1, h2⟩ := ha
    rw [h1]
    exact leave_agrees cl (hr.grown hg h2) (hg.still h2) rfl
  | oom g =>
    obtain ⟨h1, a, h2, h3, h4⟩ := ha
    exact raise_agrees cl (hr.grown hg h1) (hg.still h1) ⟨a, Nat.le_trans hg.next h2, h3, h4⟩
  | ub => simp only [Agrees] at ha; rw [ha]; rfl
  | timeout => simp only [Agrees] at ha; rw [ha]; rfl

end

theorem built {oom : Addr → Bool} {h0 h : Heap} (hg : Grown h0 h []) (v : Value) (s : Bytes) : Agrees Rep oom h0 (.ok v s) (.ok (build h v).1 (build h v).2 s) := by
  obtain ⟨B, h1, h2⟩ := build_rep v h
  exact ⟨v, B, rfl, h1, by simpa using hg.trans h2⟩

theorem boxArr {oom : Addr → Bool} {h0 h : Heap} (cl : h0.Clean) {vs : List Value} {xs : List HVal} {A : List Addr} (hr : RepL h.cell vs xs A) (hg : Grown h0 h A) (s : Bytes) :
    Agrees Rep oom h0 (.ok (.arr .array vs) s) (box oom h .array (.arr xs) .arr s) := by
  unfold box
  split
  · next ho =>
    have hr' : RepL h.bump.cell vs (Cell.arr xs).children A := hr
    exact raise_agrees cl hr' (hg.still (Grown.bump h)) ⟨h.next, hg.next, Nat.lt_succ_self _, ho⟩
  · refine ⟨_, _, rfl, ⟨h.next, xs, A, rfl, if_pos rfl, hr.frame fun b hb => ?_, rfl⟩, hg.cell _⟩
    exact if_neg (Nat.ne_of_lt (hg.fresh b hb).2)

theorem boxObj {oom : Addr → Bool} {h0 h : Heap} (cl : h0.Clean) {ms : List (Bytes × Value)} {xs : List (Bytes × HVal)} {A : List Addr} (hr : RepM h.cell ms xs A) (hg : Grown h0 h A)
    (s : Bytes) : Agrees Rep oom h0 (.ok (.obj .object ms) s) (box oom h .object (.obj xs) .obj s) := by
  unfold box
  split
  · next ho =>
    have hr' : RepL h.bump.cell (ms.map (·.2)) (Cell.obj xs).children A := hr.toL
    exact raise_agrees cl hr' (hg.still (Grown.bump h)) ⟨h.next, hg.next, Nat.lt_succ_self _, ho⟩
  · refine ⟨_, _, rfl, ⟨h.next, xs, A, rfl, if_pos rfl, hr.frame fun b hb => ?_, rfl⟩, hg.cell _⟩
    exact if_neg (Nat.ne_of_lt (hg.fresh b hb).2)

theorem RepM.emplace {h : Cells} {k : Bytes} {v : Value} {x : HVal} {D : List Addr} (hr : Rep h v x D) : ∀ {ms : List (Bytes × Value)} {xs : List (Bytes × HVal)} {A : List Addr}, RepM h ms xs A →
    (RawObject.emplace k x xs).2 = (RawObject.emplace k v ms).2 ∧
      ((RawObject.emplace k v ms).2 = true → ∃ A', RepM h (RawObject.emplace k v ms).1 (RawObject.emplace k x xs).1 A' ∧ (A ++ D).Perm A')
  | [], xs, A, hm => by
    rw [hm.1, hm.2]
    exact ⟨rfl, fun _ => ⟨D ++ [], ⟨x, [], D, [], rfl, hr, ⟨rfl, rfl⟩, rfl⟩, by simp⟩⟩
  | (k', v') :: ms, xs, A, hm => by
    obtain ⟨x', xs', B, C, e1, e2, e3, e4⟩ := hm
    subst e1 e4
    simp only [RawObject.emplace]
    by_cases h1 : bytesLt k k' = true
    · simp only [h1, if_true, true_and]
      exact fun _ => ⟨D ++ (B ++ C), ⟨x, _, D, B ++ C, rfl, hr, ⟨x', xs', B, C, rfl, e2, e3, rfl⟩, rfl⟩, List.perm_append_comm⟩
    · by_cases h2 : bytesLt k' k = true
      · simp only [h1, h2, if_true, Bool.false_eq_true, if_false]
        obtain ⟨g1, g2⟩ := RepM.emplace (k := k) hr e3
        refine ⟨g1, fun ht => ?_⟩
        obtain ⟨A', g3, g4⟩ := g2 ht
        exact ⟨B ++ A', ⟨x', _, B, A', rfl, e2, g3, rfl⟩, by rw [List.append_assoc]; exact g4.append_left B⟩
      · simp [h1, h2]

mutual

theorem valueH_agrees (oom : Addr → Bool) (cfg : Cfg) : ∀ (n : Nat) (h : Heap) (s : Bytes), h.Clean → Agrees Rep oom h (parseValue cfg n s) (valueH oom cfg n h s)
  | 0, h, s, cl => by simp only [parseValue, valueH]; rfl
  | n + 1, h, [], cl => by simp only [parseValue, valueH]; rfl
  | n + 1, h, c :: s, cl => by
    have e : RepL h.cell [] [] [] := ⟨rfl, rfl⟩
    have g : Grown h h [] := Grown.refl h
    simp only [parseValue, valueH]
    split
    · exact still_agrees_ok cl e g fun v s _ => built g v s
    split
    · exact still_agrees_ok cl e g fun v s _ => alloc_agrees cl e g fun _ g' => built g' v s
    split
    · exact still_agrees_ok cl e g fun v s _ => alloc_agrees cl e g fun _ g' => built g' v s
    split
    · exact alloc_agrees cl e g fun e' g' => still_agrees_ok cl e' g' fun v s _ => built g' v s
    split
    · exact arrayH_agrees oom cfg n h _ cl
    split
    · exact objectH_agrees oom cfg n h _ cl
    · exact ⟨rfl, g⟩

theorem arrayH_agrees (oom : Addr → Bool) (cfg : Cfg) : ∀ (n : Nat) (h : Heap) (s : Bytes), h.Clean → Agrees Rep oom h (parseArray cfg n s) (arrayH oom cfg n h s)
  | 0, h, s, cl => by simp only [parseArray, arrayH]; rfl
  | n + 1, h, [], cl => by simp only [parseArray, arrayH]; rfl
  | n + 1, h, c :: s, cl => by
    have e : RepL h.cell [] [] [] := ⟨rfl, rfl⟩
    have g : Grown h h [] := Grown.refl h
    simp only [parseArray, arrayH]
    split
    · exact ⟨rfl, g⟩
    refine still_agrees cl e g fun more cur _ => ?_
    split
    · exact ⟨rfl, g⟩
    cases cur with
    | nil => rfl
    | cons d cur' =>
      simp only
      split
      · exact boxArr cl e g cur'
      refine during_agrees cl e g (arrayLoopH_agrees oom cfg n h h [] [] [] _ cl e g) fun f xs s vs B _ _ hr hg _ _ => ?_
      refine still_agrees cl hr hg fun more cur _ => ?_
      split
      · exact leave_agrees cl hr hg rfl
      cases cur with
      | nil => rfl
      | cons d cur' =>
        simp only
        split
        · exact boxArr cl hr hg cur'
        · exact leave_agrees cl hr hg rfl

theorem arrayLoopH_agrees (oom : Addr → Bool) (cfg : Cfg) : ∀ (n : Nat) (h0 h : Heap) (vs : List Value) (xs : List HVal) (A : List Addr) (s : Bytes), h0.Clean → RepL h.cell vs xs A →
    Grown h0 h A → Agrees RepL oom h0 (arrayLoop cfg n vs s) (arrayLoopH oom cfg n h xs s)
  | 0, h0, h, vs, xs, A, s, cl, hr, hg => by simp only [arrayLoop, arrayLoopH]; rfl
  | n + 1, h0, h, vs, xs, A, s, cl, hr, hg => by
    simp only [arrayLoop, arrayLoopH]
    refine still_agrees cl hr hg fun more cur _ => ?_
    split
    · exact leave_agrees cl hr hg rfl
    cases cur with
    | nil => rfl
    | cons c s =>
      simp only
      split
      · exact ⟨vs, A, rfl, hr, hg⟩
      refine during_agrees cl hr hg (valueH_agrees oom cfg n h _ (hg.clean cl)) fun f x s v B _ _ hx hf hr' hg' => ?_
      have both : RepL f.cell (v :: vs) (x :: xs) (B ++ A) := ⟨x, xs, B, A, rfl, hx, hr', rfl⟩
      have gb : Grown h0 f (B ++ A) := hg'.perm List.perm_append_comm
      refine still_agrees cl both gb fun more cur _ => ?_
      split
      · exact leave_agrees cl both gb rfl
      refine alloc_agrees cl both gb fun _ _ => ?_
      have long : RepL f.bump.cell (vs ++ [v]) (xs ++ [x]) (A ++ B) := by
        have : RepL f.bump.cell [v] [x] B := ⟨x, [], B, [], rfl, hx, ⟨rfl, rfl⟩, by simp⟩
        exact RepL.append hr' this
      have gl : Grown h0 f.bump (A ++ B) := hg'.still (Grown.bump f)
      cases cur with
      | nil => rfl
      | cons c s =>
        simp only
        split
        · exact arrayLoopH_agrees oom cfg n h0 _ _ _ _ s cl long gl
        · exact ⟨_, _, rfl, long, gl⟩

theorem objectH_agrees (oom : Addr → Bool) (cfg : Cfg) : ∀ (n : Nat) (h : Heap) (s : Bytes), h.Clean → Agrees Rep oom h (parseObject cfg n s) (objectH oom cfg n h s)
  | 0, h, s, cl => by simp only [parseObject, objectH]; rfl
  | n + 1, h, [], cl => by simp only [parseObject, objectH]; rfl
  | n + 1, h, c :: s, cl => by
    have e : RepL h.cell [] [] [] := ⟨rfl, rfl⟩
    have em : RepM h.cell [] [] [] := ⟨rfl, rfl⟩
    have g : Grown h h [] := Grown.refl h
    simp only [parseObject, objectH]
    split
    · exact ⟨rfl, g⟩
    refine still_agrees cl e g fun more cur _ => ?_
    split
    · exact ⟨rfl, g⟩
    cases cur with
    | nil => rfl
    | cons d cur' =>
      simp only
      split
      · exact boxObj cl em g cur'
      refine during_agrees cl e g (objectLoopH_agrees oom cfg n h h [] [] [] _ cl em g) fun f xs s vs B _ _ hr hg _ _ => ?_
      refine still_agrees cl hr.toL hg fun more cur _ => ?_
      split
      · exact leave_agrees cl hr.toL hg rfl
      cases cur with
      | nil => rfl
      | cons d cur' =>
        simp only
        split
        · exact boxObj cl hr hg cur'
        · exact leave_agrees cl hr.toL hg rfl

theorem objectLoopH_agrees (oom : Addr → Bool) (cfg : Cfg) : ∀ (n : Nat) (h0 h : Heap) (ms : List (Bytes × Value)) (xs : List (Bytes × HVal)) (A : List Addr) (s : Bytes), h0.Clean →
    RepM h.cell ms xs A → Grown h0 h A → Agrees RepM oom h0 (objectLoop cfg n ms s) (objectLoopH oom cfg n h xs s)
  | 0, h0, h, vs, xs, A, s, cl, hr, hg => by simp only [objectLoop, objectLoopH]; rfl
  | n + 1, h0, h, ms, xs, A, s, cl, hm, hg => by
    have hr := hm.toL
    simp only [objectLoop, objectLoopH]
    refine still_agrees cl hr hg fun more cur _ => ?_
    split
    · exact leave_agrees cl hr hg rfl
    cases cur with
    | nil => rfl
    | cons c s =>
      simp only
      split
      · exact ⟨ms, A, rfl, hm, hg⟩
      split
      · next hc => exact leave_agrees cl hr hg (by simp [parseStdstring, hc])
      refine alloc_agrees cl hr hg fun hr hg => ?_
      have hm : RepM h.bump.cell ms xs A := hm
      refine still_agrees cl hr hg fun key cur _ => ?_
      refine still_agrees cl hr hg fun more cur _ => ?_
      split
      · exact leave_agrees cl hr hg rfl
      cases cur with
      | nil => rfl
      | cons c s =>
        simp only
        split
        · exact leave_agrees cl hr hg rfl
        refine still_agrees cl hr hg fun more cur _ => ?_
        split
        · exact leave_agrees cl hr hg rfl
        refine during_agrees cl hr hg (valueH_agrees oom cfg n h.bump _ (hg.clean cl)) fun f x s v B _ _ hx hf hr' hg' => ?_
        have both : RepL f.cell (v :: ms.map (·.2)) (x :: xs.map (·.2)) (B ++ A) := ⟨x, _, B, A, rfl, hx, hr', rfl⟩
        have gb : Grown h0 f (B ++ A) := hg'.perm List.perm_append_comm
        refine still_agrees cl both gb fun more cur _ => ?_
        split
        · exact leave_agrees cl both gb rfl
        refine alloc_agrees cl both gb fun both' gb' => ?_
        have hm' : RepM f.bump.cell ms xs A := hm.frame fun a ha => hf.old a fun hb => by have := (hg.fresh a ha).2; have := (hf.fresh a hb).1; omega
        have hx' : Rep f.bump.cell v x B := hx
        obtain ⟨e1, e2⟩ := RepM.emplace (k := key) hx' hm'
        rw [e1]
        split
        · exact leave_agrees cl both' gb' rfl
        next ht =>
        obtain ⟨A', e3, e4⟩ := e2 (by simpa using ht)
        have gl : Grown h0 f.bump A' := (hg'.still (Grown.bump f)).perm e4
        cases cur with
        | nil => rfl
        | cons c s =>
          simp only
          split
          · exact objectLoopH_agrees oom cfg n h0 _ _ _ _ s cl e3 gl
          · exact ⟨_, _, rfl, e3, gl⟩

end

theorem parseRunH_agrees (oom : Addr → Bool) (cfg : Cfg) (n : Nat) (h : Heap) (s : Bytes) (cl : h.Clean) : Agrees Rep oom h (parseRun cfg n s) (parseRunH oom cfg n h s) := by
  have e : RepL h.cell [] [] [] := ⟨rfl, rfl⟩
  have g : Grown h h [] := Grown.refl h
  simp only [parseRun, parseRunH]
  refine still_agrees cl e g fun more cur _ => ?_
  split
  · exact ⟨rfl, g⟩
  cases cur with
  | nil => rfl
  | cons c cur =>
    simp only
    have first : Agrees Rep oom h (if c = 0x5b then parseArray cfg n (c :: cur) else if c = 0x7b then parseObject cfg n (c :: cur) else .fail)
        (if c = 0x5b then arrayH oom cfg n h (c :: cur) else if c = 0x7b then objectH oom cfg n h (c :: cur) else .fail h) := by
      split
      · exact arrayH_agrees oom cfg n h _ cl
      split
      · exact objectH_agrees oom cfg n h _ cl
      · exact ⟨rfl, g⟩
    refine during_agrees cl e g first fun f x s v B _ _ hx hf _ _ => ?_
    have one : RepL f.cell [v] [x] B := ⟨x, [], B, [], rfl, hx, ⟨rfl, rfl⟩, by simp⟩
    refine still_agrees cl one hf fun more cur _ => ?_
    split
    · exact leave_agrees cl one hf rfl
    · exact ⟨v, B, rfl, hx, hf⟩

end Meojson.Mem
