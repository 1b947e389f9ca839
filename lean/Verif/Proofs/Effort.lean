import Verif.Model.Effort
import Verif.Proofs.Cost
import Verif.Proofs.Map

/-!
# Lemmas: the work of the containers while parsing
-/

set_option autoImplicit false

namespace Meojson

/-! ### It computes the same -/

namespace Spent
variable {α β : Type}
@[simp] theorem res_free (r : Res α) : (free r).res = r := rfl
@[simp] theorem res_pay (w a : Nat) (r : Spent α) : (pay w a r).res = r.res := rfl
@[simp] theorem res_bind (r : Spent α) (f : α → Bytes → Spent β) : (r.bind f).res = r.res.bind fun a s => (f a s).res := by
  unfold bind Res.bind; cases r.res <;> rfl
end Spent

theorem stringLoopE_res (L : Lib) (accel : Option Traits) (n cap : Nat) (result beg : Bytes) (p : UInt16) (s : Bytes) :
    (stringLoopE L accel n cap result beg p s).res = stringLoop accel n result beg p s := by
  induction n generalizing cap result beg p s with
  | zero => rfl
  | succ n ih =>
    cases s with
    | nil => rfl
    | cons c₀ s₀ =>
      simp only [stringLoopE, stringLoop, Spent.res_bind, Spent.res_free]
      congr 1; funext more cur
      cases more with
      | false => rfl
      | true =>
        cases cur with
        | nil => rfl
        | cons c s =>
          simp only [Bool.true_eq_false, if_false]
          split
          · rfl
          · split
            · cases s with
              | nil => rfl
              | cons d s =>
                simp only [Spent.res_pay]
                split
                · rfl
                · split
                  · simp [ih]
                  · cases simpleEscape d <;> simp [ih]
            · (repeat' split) <;> simp [ih]

@[simp] theorem parseStdstringE_res (L : Lib) (accel : Option Traits) (s : Bytes) : (parseStdstringE L accel s).res = parseStdstring accel s := by
  cases s with
  | nil => rfl
  | cons c s => simp only [parseStdstringE, parseStdstring]; split <;> simp [stringLoopE_res]

@[simp] theorem parseStringE_res (L : Lib) (accel : Option Traits) (s : Bytes) : (parseStringE L accel s).res = parseString accel s := by
  simp [parseStringE, parseString]

@[simp] theorem madeText_res (r : Res Value) : (madeText r).res = r := by
  unfold madeText; split <;> rfl

structure SameE (L : Lib) (cfg : Cfg) (n : Nat) : Prop where
  value : ∀ s, (parseValueE L cfg n s).res = parseValue cfg n s
  array : ∀ s, (parseArrayE L cfg n s).res = parseArray cfg n s
  arrayLoop : ∀ cap acc s, (arrayLoopE L cfg n cap acc s).res = arrayLoop cfg n acc s
  object : ∀ s, (parseObjectE L cfg n s).res = parseObject cfg n s
  objectLoop : ∀ acc s, (objectLoopE L cfg n acc s).res = objectLoop cfg n acc s

private theorem res_match {α : Type} (cur : Bytes) (f : UInt8 → Bytes → Spent α) (g : UInt8 → Bytes → Res α) (h : ∀ c s, (f c s).res = g c s) :
    (match cur with | [] => Spent.free .ub | c :: s => f c s).res = match cur with | [] => .ub | c :: s => g c s := by
  cases cur <;> simp [h]

theorem sameE (L : Lib) (cfg : Cfg) (n : Nat) : SameE L cfg n := by
  induction n with
  | zero => constructor <;> intros <;> simp [parseValueE, parseArrayE, arrayLoopE, parseObjectE, objectLoopE, parseValue, parseArray, arrayLoop, parseObject, objectLoop]
  | succ n ih =>
    constructor
    · intro s
      cases s with
      | nil => simp [parseValueE, parseValue]
      | cons c s =>
        simp only [parseValueE, parseValue]
        (repeat' split) <;> simp [ih.array, ih.object]
    · intro s
      cases s with
      | nil => simp [parseArrayE, parseArray]
      | cons c s =>
        simp only [parseArrayE, parseArray]
        split
        · rfl
        · rw [Spent.res_bind, Spent.res_free]
          congr 1; funext more cur
          cases more <;> simp only [if_true, Bool.true_eq_false, if_false, Spent.res_free]
          refine res_match _ _ _ fun d cur' => ?_
          split
          · rfl
          · rw [Spent.res_bind, ih.arrayLoop]
            congr 1; funext r cur
            rw [Spent.res_bind, Spent.res_free]
            congr 1; funext more cur
            cases more <;> simp only [if_true, Bool.true_eq_false, if_false, Spent.res_free]
            refine res_match _ _ _ fun d cur' => ?_
            split <;> rfl
    · intro cap acc s
      simp only [arrayLoopE, arrayLoop]
      rw [Spent.res_bind, Spent.res_free]
      congr 1; funext more cur
      cases more <;> simp only [if_true, Bool.true_eq_false, if_false, Spent.res_free]
      refine res_match _ _ _ fun d cur' => ?_
      split
      · rfl
      · rw [Spent.res_bind, ih.value]
        congr 1; funext r cur
        rw [Spent.res_bind, Spent.res_free]
        congr 1; funext more cur
        cases more <;> simp only [if_true, Bool.true_eq_false, if_false, Spent.res_free]
        refine res_match _ _ _ fun d cur' => ?_
        rw [Spent.res_pay]
        split
        · exact ih.arrayLoop _ _ _
        · rfl
    · intro s
      cases s with
      | nil => simp [parseObjectE, parseObject]
      | cons c s =>
        simp only [parseObjectE, parseObject]
        split
        · rfl
        · rw [Spent.res_bind, Spent.res_free]
          congr 1; funext more cur
          cases more <;> simp only [if_true, Bool.true_eq_false, if_false, Spent.res_free]
          refine res_match _ _ _ fun d cur' => ?_
          split
          · rfl
          · rw [Spent.res_bind, ih.objectLoop]
            congr 1; funext r cur
            rw [Spent.res_bind, Spent.res_free]
            congr 1; funext more cur
            cases more <;> simp only [if_true, Bool.true_eq_false, if_false, Spent.res_free]
            refine res_match _ _ _ fun d cur' => ?_
            split <;> rfl
    · intro acc s
      simp only [objectLoopE, objectLoop]
      rw [Spent.res_bind, Spent.res_free]
      congr 1; funext more cur
      cases more <;> simp only [if_true, Bool.true_eq_false, if_false, Spent.res_free]
      refine res_match _ _ _ fun d cur' => ?_
      split
      · rfl
      · rw [Spent.res_bind, parseStdstringE_res]
        congr 1; funext key cur
        rw [Spent.res_bind, Spent.res_free]
        congr 1; funext more cur
        cases more <;> simp only [if_true, Bool.true_eq_false, if_false, Spent.res_free]
        refine res_match _ _ _ fun d cur' => ?_
        split
        · rfl
        · rw [Spent.res_bind, Spent.res_free]
          congr 1; funext more cur
          cases more <;> simp only [if_true, Bool.true_eq_false, if_false, Spent.res_free]
          rw [Spent.res_bind, ih.value]
          congr 1; funext r cur
          rw [Spent.res_bind, Spent.res_free]
          congr 1; funext more cur
          cases more <;> simp only [if_true, Bool.true_eq_false, if_false, Spent.res_free]
          rw [Spent.res_pay]
          split
          · rfl
          · refine res_match _ _ _ fun d cur' => ?_
            split
            · exact ih.objectLoop _ _
            · rfl

theorem parseRunE_res (L : Lib) (cfg : Cfg) (n : Nat) (s : Bytes) : (parseRunE L cfg n s).res = parseRun cfg n s := by
  simp only [parseRunE, parseRun]
  rw [Spent.res_bind, Spent.res_free]
  congr 1; funext more cur
  cases more <;> simp only [if_true, Bool.true_eq_false, if_false, Spent.res_free]
  refine res_match _ _ _ fun d cur' => ?_
  rw [Spent.res_bind]
  congr 1
  · (repeat' split) <;> simp [(sameE L cfg n).array, (sameE L cfg n).object]
  · funext r cur
    rw [Spent.res_bind, Spent.res_free]
    congr 1; funext more cur
    cases more <;> rfl

/-! ### Growing buffers -/

/-- A way to grow: to what is needed at least, by half at least, and to thrice what is needed at most. -/
structure Geometric (grow : Nat → Nat → Nat) : Prop where
  fits : ∀ cap need, cap < need → need ≤ grow cap need
  half : ∀ cap need, cap < need → cap + cap / 2 ≤ grow cap need
  thrice : ∀ cap need, cap < need → grow cap need ≤ 3 * need

/-- What has been put aside for the next time that a buffer grows. -/
def saved (size cap : Nat) : Nat := 3 * size - 2 * cap

theorem room_pays {grow : Nat → Nat → Nat} (hg : Geometric grow) {cap size m : Nat} (h : size ≤ cap) :
    size + m ≤ room grow cap size m ∧ carried cap size m + saved (size + m) (room grow cap size m) ≤ saved size cap + 6 * m ∧
      larger grow cap size m + 3 * saved (size + m) (room grow cap size m) ≤ 3 * saved size cap + 18 * m := by
  unfold room carried larger saved
  split
  · omega
  · have h1 := hg.fits cap (size + m) (by omega)
    have h2 := hg.half cap (size + m) (by omega)
    have h3 := hg.thrice cap (size + m) (by omega)
    omega

theorem append_pays {L : Lib} (hg : Geometric L.growText) {cap size m : Nat} (h : size ≤ cap) :
    size + m ≤ (L.append cap size m).cap ∧ (L.append cap size m).work + saved (size + m) (L.append cap size m).cap ≤ saved size cap + 8 * m ∧
      (L.append cap size m).asked + 3 * saved (size + m) (L.append cap size m).cap ≤ 3 * saved size cap + 21 * m := by
  obtain ⟨h1, h2, h3⟩ := room_pays hg (m := m) h
  refine ⟨h1, ?_, ?_⟩
  · simp only [Lib.append]; omega
  · simp only [Lib.append]
    split
    · omega
    · omega

theorem pushes_pay {L : Lib} (hg : Geometric L.growText) (k : Nat) {cap size : Nat} (h : size ≤ cap) :
    size + k ≤ (L.pushes k cap size).cap ∧ (L.pushes k cap size).work + saved (size + k) (L.pushes k cap size).cap ≤ saved size cap + 8 * k ∧
      (L.pushes k cap size).asked + 3 * saved (size + k) (L.pushes k cap size).cap ≤ 3 * saved size cap + 21 * k := by
  induction k generalizing cap size with
  | zero => simp [Lib.pushes, h]
  | succ k ih =>
    obtain ⟨h1, h2, h3⟩ := append_pays hg (m := 1) h
    obtain ⟨h4, h5, h6⟩ := ih h1
    simp only [Lib.pushes]
    have e : size + 1 + k = size + (k + 1) := by omega
    rw [e] at h4 h5 h6
    omega

/-! ### Texts -/

theorem skipWhitespace_suffix {j b : Bool} {s r : Bytes} (h : skipWhitespace j s = .ok b r) : r <:+ s :=
  ((skipWhitespaceT_cost j s).ok b r (by rw [skipWhitespaceT_res]; exact h)).1

theorem accelStep_suffix {accel : Option Traits} (hT : StepPos accel) {b : Bool} {s r : Bytes} (h : accelStep accel s = .ok b r) : r <:+ s :=
  ((accelStepT_cost hT s).ok b r (by rw [accelStepT_res]; exact h)).1

theorem hexLoop_length : ∀ (n : Nat) (cp cp' : UInt16) (s r : Bytes), hexLoop n cp s = .ok cp' r → r.length + n = s.length ∧ r <:+ s
  | 0, cp, cp', s, r, h => by simp only [hexLoop, Res.ok.injEq] at h; obtain ⟨_, rfl⟩ := h; exact ⟨rfl, List.suffix_refl _⟩
  | n + 1, cp, cp', [], r, h => by simp [hexLoop] at h
  | n + 1, cp, cp', c :: s, r, h => by
    simp only [hexLoop] at h
    cases hc : hexStep cp c with
    | none => rw [hc] at h; cases h
    | some x =>
      rw [hc] at h
      have := hexLoop_length n x cp' s r h
      exact ⟨by simp only [List.length_cons]; omega, this.2.trans (List.suffix_cons _ _)⟩

theorem unicodeUnit_length {p cp : UInt16} {r : UInt16 × Bytes} (h : unicodeUnit p cp = some r) : r.2.length ≤ 4 := by
  have hu : ∀ e, (utf8Bytes e).length ≤ 4 := by intro e; unfold utf8Bytes; (repeat' split) <;> simp
  have key : ∀ (q : UInt16) (e : UInt32), some (q, utf8Bytes e) = some r → r.2.length ≤ 4 := by intro q e h; cases h; exact hu e
  unfold unicodeUnit at h
  split at h
  · split at h
    · cases h
    · cases h; exact Nat.zero_le _
  · split at h
    · split at h
      · cases h
      · exact key _ _ h
    · exact key _ _ h

theorem skipUnicodeEscape_length {p : UInt16} {x : UInt16 × Bytes} {s r : Bytes} (h : skipUnicodeEscape p s = .ok x r) : x.2.length ≤ 4 ∧ r.length + 4 = s.length ∧ r <:+ s := by
  unfold skipUnicodeEscape at h
  cases hx : hexLoop 4 0 s with
  | ok cp t =>
    simp only [hx, Res.bind] at h
    cases hu : unicodeUnit p cp with
    | none => rw [hu] at h; cases h
    | some y =>
      rw [hu] at h; cases h
      have := hexLoop_length _ _ _ _ _ hx
      exact ⟨unicodeUnit_length hu, this.1, this.2⟩
  | fail => simp [hx, Res.bind] at h
  | ub => simp [hx, Res.bind] at h
  | timeout => simp [hx, Res.bind] at h

/-- What reading a string takes, with `n` bytes in `result` and `b` from `no_escape_beg` on. -/
structure TextPaid (n cap b : Nat) (cur : Bytes) (r : Spent Bytes) : Prop where
  work : r.work ≤ saved n cap + 8 * b
  asked : r.asked ≤ 3 * saved n cap + 21 * b
  ok : ∀ t rest, r.res = .ok t rest → rest <:+ cur ∧ r.work + 8 * rest.length ≤ saved n cap + 8 * b ∧ r.asked + 21 * rest.length ≤ 3 * saved n cap + 21 * b ∧
    t.length + rest.length + 1 ≤ n + b

theorem TextPaid.nothing {n cap b : Nat} {cur : Bytes} {r : Res Bytes} (h : ∀ t rest, r ≠ .ok t rest) : TextPaid n cap b cur (.free r) :=
  ⟨Nat.zero_le _, Nat.zero_le _, fun t rest e => absurd e (h t rest)⟩

theorem TextPaid.pay {n cap b n' cap' b' : Nat} {cur cur' : Bytes} {r : Spent Bytes} (h : TextPaid n' cap' b' cur' r) (hs : cur' <:+ cur) {w a : Nat}
    (h1 : w + saved n' cap' + 8 * b' ≤ saved n cap + 8 * b) (h2 : a + 3 * saved n' cap' + 21 * b' ≤ 3 * saved n cap + 21 * b) (h3 : n' + b' ≤ n + b) :
    TextPaid n cap b cur (r.pay w a) := by
  have e1 := h.work
  have e2 := h.asked
  refine ⟨by simp only [Spent.pay]; omega, by simp only [Spent.pay]; omega, fun t rest e => ?_⟩
  obtain ⟨g1, g2, g3, g4⟩ := h.ok t rest e
  exact ⟨g1.trans hs, by simp only [Spent.pay]; omega, by simp only [Spent.pay]; omega, by omega⟩

theorem between_length {beg cur : Bytes} (h : cur <:+ beg) : (between beg cur).length + cur.length = beg.length := by
  have := h.length_le
  simp only [between, List.length_take]; omega

/-- The step of `accelStep`, of which only the position matters. -/
theorem TextPaid.step {accel : Option Traits} (hT : StepPos accel) {n cap b : Nat} {cur : Bytes} {f : Bool → Bytes → Spent Bytes}
    (h : ∀ more rest, rest <:+ cur → TextPaid n cap b rest (f more rest)) : TextPaid n cap b cur ((Spent.free (accelStep accel cur)).bind f) := by
  cases ha : accelStep accel cur with
  | ok more rest =>
    have hs := accelStep_suffix hT ha
    have := h more rest hs
    have w := this.work
    have a := this.asked
    refine ⟨by simp only [Spent.bind, Spent.free]; omega, by simp only [Spent.bind, Spent.free]; omega, fun t r e => ?_⟩
    simp only [Spent.bind, Spent.free] at e ⊢
    obtain ⟨g1, g2, g3, g4⟩ := this.ok t r e
    exact ⟨g1.trans hs, by omega, by omega, g4⟩
  | fail => exact ⟨by simp [Spent.bind, Spent.free], by simp [Spent.bind, Spent.free], fun t r e => by simp [Spent.bind, Spent.free] at e⟩
  | ub => exact ⟨by simp [Spent.bind, Spent.free], by simp [Spent.bind, Spent.free], fun t r e => by simp [Spent.bind, Spent.free] at e⟩
  | timeout => exact ⟨by simp [Spent.bind, Spent.free], by simp [Spent.bind, Spent.free], fun t r e => by simp [Spent.bind, Spent.free] at e⟩

theorem stringLoopE_paid {L : Lib} (hg : Geometric L.growText) {accel : Option Traits} (hT : StepPos accel) (n cap : Nat) (result beg : Bytes) (p : UInt16) (s : Bytes)
    (hc : result.length ≤ cap) (hs : s <:+ beg) : TextPaid result.length cap beg.length s (stringLoopE L accel n cap result beg p s) := by
  induction n generalizing cap result beg p s with
  | zero => exact .nothing (by simp)
  | succ n ih =>
    cases s with
    | nil => exact .nothing (by simp)
    | cons c₀ s₀ =>
      simp only [stringLoopE]
      refine .step hT fun more cur hcur => ?_
      split
      · exact .nothing (by simp)
      · cases cur with
        | nil => exact .nothing (by simp)
        | cons c s =>
          have hb := hcur.trans hs
          have hl := between_length hb
          have hl' := hb.length_le
          simp only [List.length_cons] at hl hl'
          simp only
          split
          · exact .nothing (by simp)
          · split
            · obtain ⟨g1, g2, g3⟩ := append_pays hg (m := (between beg (c :: s)).length) hc
              generalize hgr : L.append cap result.length (between beg (c :: s)).length = g at g1 g2 g3 ⊢
              cases s with
              | nil =>
                exact (TextPaid.nothing (n := 0) (cap := 0) (b := 0) (cur := []) (r := .fail) (by simp)).pay (List.nil_suffix) (by simp only [saved] at g2 ⊢; omega) (by simp only [saved] at g3 ⊢; omega) (by omega)
              | cons d s =>
                simp only [List.length_cons] at hl
                have hn : ∀ {cur}, TextPaid result.length cap beg.length cur (Spent.pay g.work g.asked (Spent.free .fail)) := fun {cur} =>
                  (TextPaid.nothing (n := 0) (cap := 0) (b := 0) (cur := []) (r := .fail) (by simp)).pay (List.nil_suffix) (by simp only [saved] at g2 ⊢; omega) (by simp only [saved] at g3 ⊢; omega) (by omega)
                have hsuf : s <:+ c :: d :: s := (List.suffix_cons d s).trans (List.suffix_cons c _)
                simp only
                split
                · exact hn
                · split
                  · cases hu : skipUnicodeEscape p s with
                    | ok r t =>
                      obtain ⟨u1, u2, u3⟩ := skipUnicodeEscape_length hu
                      have hlen : (result ++ between beg (c :: d :: s)).length = result.length + (between beg (c :: d :: s)).length := List.length_append
                      obtain ⟨q1, q2, q3⟩ := pushes_pay hg r.2.length (cap := g.cap) (size := (result ++ between beg (c :: d :: s)).length) (by rw [hlen]; exact g1)
                      have hrec := ih (L.pushes r.2.length g.cap (result ++ between beg (c :: d :: s)).length).cap (result ++ between beg (c :: d :: s) ++ r.2) t r.1 t
                        (by rw [List.length_append]; exact q1) (List.suffix_refl t)
                      simp only [Spent.bind, Spent.free]
                      rw [hlen] at q2 q3 hrec ⊢
                      rw [List.length_append, hlen] at hrec
                      have := hrec.pay (n := result.length) (cap := cap) (b := beg.length) (cur := c :: d :: s)
                        (w := g.work + (L.pushes r.2.length g.cap (result.length + (between beg (c :: d :: s)).length)).work)
                        (a := g.asked + (L.pushes r.2.length g.cap (result.length + (between beg (c :: d :: s)).length)).asked)
                        (u3.trans hsuf) (by omega) (by omega) (by omega)
                      simpa only [Spent.pay, Nat.zero_add, Nat.add_assoc] using this
                    | fail => exact hn
                    | ub => exact (TextPaid.nothing (n := 0) (cap := 0) (b := 0) (cur := []) (r := .ub) (by simp)).pay (List.nil_suffix) (by simp only [saved] at g2 ⊢; omega) (by simp only [saved] at g3 ⊢; omega) (by omega)
                    | timeout => exact (TextPaid.nothing (n := 0) (cap := 0) (b := 0) (cur := []) (r := .timeout) (by simp)).pay (List.nil_suffix) (by simp only [saved] at g2 ⊢; omega) (by simp only [saved] at g3 ⊢; omega) (by omega)
                  · cases simpleEscape d with
                    | none => exact hn
                    | some e =>
                      have hlen : (result ++ between beg (c :: d :: s)).length = result.length + (between beg (c :: d :: s)).length := List.length_append
                      obtain ⟨q1, q2, q3⟩ := pushes_pay hg 1 (cap := g.cap) (size := (result ++ between beg (c :: d :: s)).length) (by rw [hlen]; exact g1)
                      have hrec := ih (L.pushes 1 g.cap (result ++ between beg (c :: d :: s)).length).cap (result ++ between beg (c :: d :: s) ++ [e]) s p s
                        (by rw [List.length_append]; exact q1) (List.suffix_refl s)
                      simp only
                      rw [hlen] at q2 q3 hrec ⊢
                      rw [List.length_append, hlen] at hrec
                      simp only [List.length_cons, List.length_nil, Nat.zero_add] at hrec
                      have := hrec.pay (n := result.length) (cap := cap) (b := beg.length) (cur := c :: d :: s)
                        (w := g.work + (L.pushes 1 g.cap (result.length + (between beg (c :: d :: s)).length)).work)
                        (a := g.asked + (L.pushes 1 g.cap (result.length + (between beg (c :: d :: s)).length)).asked)
                        hsuf (by omega) (by omega) (by omega)
                      simpa only [Spent.pay, Nat.add_assoc] using this
            · split
              · split
                · exact .nothing (by simp)
                · obtain ⟨g1, g2, g3⟩ := append_pays hg (m := (between beg (c :: s)).length) hc
                  generalize hgr : L.append cap result.length (between beg (c :: s)).length = g at g1 g2 g3 ⊢
                  refine ⟨by simp only [Spent.pay, Spent.free]; omega, by simp only [Spent.pay, Spent.free]; omega, fun t rest e => ?_⟩
                  simp only [Spent.pay, Spent.free, Res.ok.injEq] at e ⊢
                  obtain ⟨rfl, rfl⟩ := e
                  exact ⟨List.suffix_cons _ _, by omega, by omega, by rw [List.length_append]; omega⟩
              · split
                · exact .nothing (by simp)
                · split
                  · exact .nothing (by simp)
                  · have := ih cap result beg p s hc ((List.suffix_cons c s).trans hb)
                    have := this.pay (w := 0) (a := 0) (cur := c :: s) (List.suffix_cons c s) (n := result.length) (cap := cap) (b := beg.length) (by omega) (by omega) (by omega)
                    simpa only [Spent.pay, Nat.zero_add] using this

/-! ### Values -/

/-- At most `A` and `B` for every byte read, and something left over for a result; the same for memory. -/
structure Paid {α : Type} (B C : Nat) (X Y : α → Nat) (A A' : Nat) (s : Bytes) (r : Spent α) : Prop where
  work : r.work ≤ A + B * s.length
  asked : r.asked ≤ A' + C * s.length
  ok : ∀ a rest, r.res = .ok a rest → rest <:+ s ∧ r.work + X a + B * rest.length ≤ A + B * s.length ∧ r.asked + Y a + C * rest.length ≤ A' + C * s.length

/-- Nothing is left over. -/
abbrev none0 {α : Type} : α → Nat := fun _ => 0

namespace Paid
variable {α β : Type} {B C : Nat}

theorem nothing {X Y : α → Nat} {A A' : Nat} {s : Bytes} {r : Res α} (h : ∀ a rest, r ≠ .ok a rest) : Paid B C X Y A A' s (.free r) :=
  ⟨Nat.zero_le _, Nat.zero_le _, fun a rest e => absurd e (h a rest)⟩
theorem fail {X Y : α → Nat} {A A' : Nat} {s : Bytes} : Paid B C X Y A A' s (.free .fail) := nothing (by simp)
theorem ub {X Y : α → Nat} {A A' : Nat} {s : Bytes} : Paid B C X Y A A' s (.free .ub) := nothing (by simp)

/-- What moves the position and costs nothing. -/
theorem free {s : Bytes} {A A' : Nat} {r : Res α} (h : ∀ a rest, r = .ok a rest → rest <:+ s) : Paid B C none0 none0 A A' s (.free r) := by
  refine ⟨Nat.zero_le _, Nat.zero_le _, fun a rest e => ⟨h a rest e, ?_, ?_⟩⟩
  · have := Nat.mul_le_mul_left B (h a rest e).length_le
    simp only [Spent.free, none0]; omega
  · have := Nat.mul_le_mul_left C (h a rest e).length_le
    simp only [Spent.free, none0]; omega

theorem ret {s : Bytes} {A A' : Nat} (a : α) : Paid B C none0 none0 A A' s (.free (.ok a s)) := free fun b rest e => by cases e; exact List.suffix_refl s

theorem pay {X Y : α → Nat} {A A' D D' : Nat} {s : Bytes} {r : Spent α} (h : Paid B C X Y A A' s r) {w a : Nat} (hw : w + A ≤ D) (ha : a + A' ≤ D') : Paid B C X Y D D' s (r.pay w a) := by
  have h1 := h.work
  have h2 := h.asked
  refine ⟨by simp only [Spent.pay]; omega, by simp only [Spent.pay]; omega, fun b rest e => ?_⟩
  obtain ⟨g1, g2, g3⟩ := h.ok b rest e
  exact ⟨g1, by simp only [Spent.pay]; omega, by simp only [Spent.pay]; omega⟩

theorem mono {X Y : α → Nat} {A A' D D' : Nat} {s t : Bytes} {r : Spent α} (h : Paid B C X Y A A' s r) (hs : s <:+ t) (h1 : A + B * s.length ≤ D + B * t.length)
    (h2 : A' + C * s.length ≤ D' + C * t.length) : Paid B C X Y D D' t r :=
  ⟨Nat.le_trans h.work h1, Nat.le_trans h.asked h2, fun a rest e => ⟨(h.ok a rest e).1.trans hs, Nat.le_trans (h.ok a rest e).2.1 h1, Nat.le_trans (h.ok a rest e).2.2 h2⟩⟩

theorem up {X Y : α → Nat} {A A' D D' : Nat} {s : Bytes} {r : Spent α} (h : Paid B C X Y A A' s r) (h1 : A ≤ D) (h2 : A' ≤ D') : Paid B C X Y D D' s r :=
  h.mono (List.suffix_refl s) (by omega) (by omega)

/-- One byte read pays. -/
theorem cons {X Y : α → Nat} {A A' D D' : Nat} {c : UInt8} {s : Bytes} {r : Spent α} (h : Paid B C X Y A A' s r) (h1 : A ≤ D + B) (h2 : A' ≤ D' + C) : Paid B C X Y D D' (c :: s) r :=
  h.mono (List.suffix_cons c s) (by simp only [List.length_cons, Nat.mul_succ]; omega) (by simp only [List.length_cons, Nat.mul_succ]; omega)

theorem bind {X Y : α → Nat} {X' Y' : β → Nat} {A A' D D' : Nat} {s : Bytes} {r : Spent α} {f : α → Bytes → Spent β} (h : Paid B C X Y A A' s r)
    (hf : ∀ a rest, rest <:+ s → Paid B C X' Y' (X a + D) (Y a + D') rest (f a rest)) : Paid B C X' Y' (A + D) (A' + D') s (r.bind f) := by
  have h1 := h.work
  have h2 := h.asked
  cases hr : r.res with
  | ok a rest =>
    obtain ⟨h3, h4, h5⟩ := h.ok a rest hr
    have h6 := hf a rest h3
    have h7 := h6.work
    have h8 := h6.asked
    refine ⟨by simp only [Spent.bind, hr]; omega, by simp only [Spent.bind, hr]; omega, fun b rest' e => ?_⟩
    simp only [Spent.bind, hr] at e ⊢
    obtain ⟨g1, g2, g3⟩ := h6.ok b rest' e
    exact ⟨g1.trans h3, by omega, by omega⟩
  | fail => exact ⟨by simp only [Spent.bind, hr]; omega, by simp only [Spent.bind, hr]; omega, fun b rest e => by simp [Spent.bind, hr] at e⟩
  | ub => exact ⟨by simp only [Spent.bind, hr]; omega, by simp only [Spent.bind, hr]; omega, fun b rest e => by simp [Spent.bind, hr] at e⟩
  | timeout => exact ⟨by simp only [Spent.bind, hr]; omega, by simp only [Spent.bind, hr]; omega, fun b rest e => by simp [Spent.bind, hr] at e⟩

/-- After white space. -/
theorem ws {X' Y' : β → Nat} {A A' : Nat} {j : Bool} {s : Bytes} {f : Bool → Bytes → Spent β} (hf : ∀ more rest, rest <:+ s → Paid B C X' Y' A A' rest (f more rest)) :
    Paid B C X' Y' A A' s ((Spent.free (skipWhitespace j s)).bind f) := by
  have := (free (B := B) (C := C) (A := 0) (A' := 0) (s := s) (r := skipWhitespace j s) fun a rest e => skipWhitespace_suffix e).bind (X' := X') (Y' := Y') (D := A) (D' := A') (f := f)
    fun a rest h => (hf a rest h).up (by simp) (by simp)
  exact this.up (by omega) (by omega)

/-- The shape after every `skip_whitespace`. -/
theorem look {X Y : β → Nat} {A A' : Nat} {more : Bool} {cur : Bytes} {f : UInt8 → Bytes → Spent β} (h : ∀ c s, cur = c :: s → Paid B C X Y A A' (c :: s) (f c s)) :
    Paid B C X Y A A' cur (if more = false then .free .fail else match (generalizing := false) cur with | [] => .free .ub | c :: s => f c s) := by
  split
  · exact fail
  · cases cur with
    | nil => exact ub
    | cons c s => exact h c s rfl
end Paid

/-- What the rest needs to know of the library and its numbers: `P` comparisons at most in maps of at most `N` entries. -/
structure Rates (L : Lib) (P N B C : Nat) : Prop where
  text : Geometric L.growText
  elems : Geometric L.growElems
  probes : ∀ n ≤ N, L.probes n ≤ P
  byte : P + 24 ≤ B
  mem : 18 * L.value + L.node + L.box + 30 ≤ C

variable {L : Lib} {P N B C : Nat}

theorem parseStdstringE_paid (hL : Rates L P N B C) {accel : Option Traits} (hT : StepPos accel) (s : Bytes) :
    Paid B C (fun key => 2 + P * (key.length + 1)) (fun _ => L.node) 0 0 s (parseStdstringE L accel s) := by
  have hB : B * s.length = 8 * s.length + (B - 8) * s.length := by rw [← Nat.add_mul]; congr 1; have := hL.byte; omega
  have hC : C * s.length = 21 * s.length + (C - 21) * s.length := by rw [← Nat.add_mul]; congr 1; have := hL.mem; omega
  cases s with
  | nil => exact .ub
  | cons c s =>
    simp only [parseStdstringE]
    split
    · have h := stringLoopE_paid hL.text hT (s.length + 1) L.small [] s 0 s (Nat.zero_le _) (List.suffix_refl s)
      have h0 : saved ([] : Bytes).length L.small = 0 := by simp [saved]
      have h1 := h.work
      have h2 := h.asked
      rw [h0] at h1 h2
      simp only [List.length_cons] at hB hC ⊢
      refine ⟨by simp only [List.length_cons]; omega, by simp only [List.length_cons]; omega, fun key rest e => ?_⟩
      obtain ⟨g1, g2, g3, g4⟩ := h.ok key rest e
      rw [h0] at g2 g3
      simp only [List.length_nil, Nat.zero_add] at g4
      have hB' : B * rest.length = 8 * rest.length + (B - 8) * rest.length := by rw [← Nat.add_mul]; congr 1; have := hL.byte; omega
      have hC' : C * rest.length = 21 * rest.length + (C - 21) * rest.length := by rw [← Nat.add_mul]; congr 1; have := hL.mem; omega
      have k1 : (B - 8) * (key.length + 1 + 1 + rest.length) ≤ (B - 8) * (s.length + 1) := Nat.mul_le_mul_left _ (by omega)
      have k2 : (C - 21) * (1 + rest.length) ≤ (C - 21) * (s.length + 1) := Nat.mul_le_mul_left _ (by have := g1.length_le; omega)
      have k3 : P * (key.length + 1) ≤ (B - 8) * (key.length + 1) := Nat.mul_le_mul_right _ (by have := hL.byte; omega)
      rw [Nat.mul_add, Nat.mul_add, Nat.mul_one] at k1
      rw [Nat.mul_add, Nat.mul_one] at k2
      have b := hL.byte
      have m := hL.mem
      refine ⟨g1.trans (List.suffix_cons _ _), ?_, ?_⟩
      · simp only [List.length_cons]; omega
      · simp only [List.length_cons]; omega
    · exact .fail

theorem parseStringE_paid (hL : Rates L P N B C) {accel : Option Traits} (hT : StepPos accel) (s : Bytes) : Paid B C none0 none0 8 8 s (parseStringE L accel s) := by
  have := (parseStdstringE_paid hL hT s).bind (X' := none0) (Y' := none0) (D := 8) (D' := 8) (f := fun str s' => Spent.pay 1 0 (.free (.ok (Value.str .string str) s')))
    fun key rest _ => (Paid.ret (A := 0) (A' := 0) _).pay (by omega) (by omega)
  exact this.up (by omega) (by omega)

theorem parseNull_suffix {s r : Bytes} {v : Value} (h : parseNull s = .ok v r) : r <:+ s := ((parseNullT_cost s).ok v r (by rw [parseNullT_res]; exact h)).1
theorem parseBoolean_suffix {s r : Bytes} {v : Value} (h : parseBoolean s = .ok v r) : r <:+ s := ((parseBooleanT_cost s).ok v r (by rw [parseBooleanT_res]; exact h)).1
theorem parseNumber_suffix {s r : Bytes} {v : Value} (h : parseNumber s = .ok v r) : r <:+ s := ((parseNumberT_cost s).ok v r (by rw [parseNumberT_res]; exact h)).1

private theorem bind_done {α β : Type} {r : Res α} {f : α → Bytes → Res β} {b : β} {t : Bytes} (h : r.bind f = .ok b t) : ∃ a s, r = .ok a s ∧ f a s = .ok b t := by
  cases r with
  | ok a s => exact ⟨a, s, rfl, h⟩
  | fail => cases h
  | ub => cases h
  | timeout => cases h

theorem boolean_paid (hL : Rates L P N B C) (s : Bytes) : Paid B C none0 none0 8 8 s (madeText (parseBoolean s)) := by
  cases h : parseBoolean s with
  | ok v r =>
    have hs := parseBoolean_suffix h
    have hv : ∃ b, v = .ofBool b := by
      unfold parseBoolean at h
      split at h
      · cases h
      · split at h
        · obtain ⟨_, _, _, h⟩ := bind_done h; cases h; exact ⟨_, rfl⟩
        · split at h
          · obtain ⟨_, _, _, h⟩ := bind_done h; cases h; exact ⟨_, rfl⟩
          · cases h
    obtain ⟨b, rfl⟩ := hv
    have : madeText (.ok (Value.ofBool b) r) = Spent.pay (if b then 5 else 6) (if b then 5 else 6) (.free (.ok (Value.ofBool b) r)) := by cases b <;> rfl
    rw [this]
    refine (Paid.free (A := 0) (A' := 0) fun a rest e => by cases e; exact hs).pay ?_ ?_ <;> split <;> omega
  | fail => exact .fail
  | ub => exact .ub
  | timeout => exact .nothing (by simp)

theorem number_paid (hL : Rates L P N B C) (s : Bytes) : Paid B C none0 none0 8 8 s (madeText (parseNumber s)) := by
  have hb := hL.byte
  have hm := hL.mem
  cases h : parseNumber s with
  | ok v r =>
    have hs := parseNumber_suffix h
    have hv : ∃ t, v = .str .number t ∧ t.length + r.length = s.length := by
      cases s with
      | nil => simp [parseNumber] at h
      | cons c s =>
        have : ∀ w r', parseNumber (c :: s) = .ok w r' → w = .str .number (between (c :: s) r') := by
          intro w r' h
          simp only [parseNumber] at h
          generalize (if c = 0x2d then s else c :: s) = s1 at h
          split at h
          · cases h
          · obtain ⟨_, _, _, h⟩ := bind_done h
            obtain ⟨_, _, _, h⟩ := bind_done h
            obtain ⟨_, _, _, h⟩ := bind_done h
            cases h
            rfl
        exact ⟨_, this v r h, between_length hs⟩
    obtain ⟨t, rfl, ht⟩ := hv
    have k1 : B * t.length + B * r.length = B * s.length := by rw [← Nat.mul_add, ht]
    have k2 : C * t.length + C * r.length = C * s.length := by rw [← Nat.mul_add, ht]
    have k3 : 1 * t.length ≤ B * t.length := Nat.mul_le_mul_right _ (by omega)
    have k4 : 1 * t.length ≤ C * t.length := Nat.mul_le_mul_right _ (by omega)
    refine ⟨by simp only [madeText]; omega, by simp only [madeText]; omega, fun a rest e => ?_⟩
    simp only [madeText, none0, Res.ok.injEq] at e ⊢
    obtain ⟨_, rfl⟩ := e
    exact ⟨hs, by omega, by omega⟩
  | fail => exact .fail
  | ub => exact .ub
  | timeout => exact .nothing (by simp)

theorem emplace_grows {β : Type} (k : Bytes) (v : β) (m : List (Bytes × β)) : (RawObject.emplace k v m).1.length ≤ m.length + 1 := by
  induction m with
  | nil => simp [RawObject.emplace]
  | cons e m ih => simp only [RawObject.emplace]; (repeat' split) <;> simp only [List.length_cons] at * <;> omega

structure PaidAt (L : Lib) (cfg : Cfg) (N B C : Nat) (n : Nat) : Prop where
  value : ∀ s, s.length ≤ N → Paid B C none0 none0 8 8 s (parseValueE L cfg n s)
  array : ∀ s, s.length < N → Paid B C none0 none0 0 0 (0x5b :: s) (parseArrayE L cfg n (0x5b :: s))
  arrayLoop : ∀ cap (acc : List Value) s, s.length ≤ N → acc.length ≤ cap →
    Paid B C none0 none0 (15 + saved acc.length cap) (8 + L.value * (18 + 3 * saved acc.length cap)) s (arrayLoopE L cfg n cap acc s)
  object : ∀ s, s.length < N → Paid B C none0 none0 0 0 (0x7b :: s) (parseObjectE L cfg n (0x7b :: s))
  objectLoop : ∀ acc s, acc.length + s.length ≤ N → Paid B C none0 none0 0 0 s (objectLoopE L cfg n acc s)

theorem arrayLoop_paid (hL : Rates L P N B C) {cfg : Cfg} {n : Nat} (ih : PaidAt L cfg N B C n) (cap : Nat) (acc : List Value) (s : Bytes) (hs : s.length ≤ N) (hc : acc.length ≤ cap) :
    Paid B C none0 none0 (15 + saved acc.length cap) (8 + L.value * (18 + 3 * saved acc.length cap)) s (arrayLoopE L cfg (n + 1) cap acc s) := by
  have hb := hL.byte
  have hm := hL.mem
  simp only [arrayLoopE]
  refine .ws fun more cur h1 => .look fun c s hc' => ?_
  have l1 := h1.length_le
  subst hc'
  split
  · exact .ret _
  · refine ((ih.value (c :: s) (by omega)).bind (D := 7 + saved acc.length cap) (D' := L.value * (18 + 3 * saved acc.length cap)) fun val cur h2 => ?_).up (by omega) (by omega)
    have l2 := h2.length_le
    refine .ws fun more cur h3 => .look fun c s hc' => ?_
    have l3 := h3.length_le
    subst hc'
    obtain ⟨p1, p2, p3⟩ := room_pays hL.elems (m := 1) hc
    have p4 : L.value * larger L.growElems cap acc.length 1 + L.value * (3 * saved (acc.length + 1) (room L.growElems cap acc.length 1)) ≤ L.value * (18 + 3 * saved acc.length cap) := by
      rw [← Nat.mul_add]; exact Nat.mul_le_mul_left _ (by omega)
    simp only [List.length_cons] at l3
    split
    · refine Paid.pay (A := saved (acc.length + 1) (room L.growElems cap acc.length 1)) (A' := L.value * (3 * saved (acc.length + 1) (room L.growElems cap acc.length 1))) ?_ (by omega) (by omega)
      have := ih.arrayLoop (room L.growElems cap acc.length 1) (acc ++ [val]) s (by omega) (by rw [List.length_append]; exact p1)
      rw [List.length_append] at this
      refine this.cons ?_ ?_
      · simp only [List.length_cons, List.length_nil, Nat.zero_add]; omega
      · simp only [List.length_cons, List.length_nil, Nat.zero_add, Nat.mul_add]; omega
    · exact (Paid.ret (A := 0) (A' := 0) _).pay (by omega) (by omega)

theorem objectLoop_paid (hL : Rates L P N B C) {cfg : Cfg} (hT : StepPos cfg.accel) {n : Nat} (ih : PaidAt L cfg N B C n) (acc : List (Bytes × Value)) (s : Bytes) (hs : acc.length + s.length ≤ N) :
    Paid B C none0 none0 0 0 s (objectLoopE L cfg (n + 1) acc s) := by
  have hb := hL.byte
  have hm := hL.mem
  simp only [objectLoopE]
  refine .ws fun more cur h1 => .look fun c s hc' => ?_
  have l1 := h1.length_le
  subst hc'
  split
  · exact .ret _
  · refine ((parseStdstringE_paid hL hT (c :: s)).bind (X' := none0) (Y' := none0) (D := 0) (D' := 0) fun key cur h2 => ?_).up (by omega) (by omega)
    have l2 := h2.length_le
    refine .ws fun more cur h3 => .look fun c s hc' => ?_
    have l3 := h3.length_le
    subst hc'
    simp only [List.length_cons] at l3
    split
    · exact .fail
    · refine Paid.cons (A := 8 + (2 + P * (key.length + 1))) (A' := 8 + L.node) ?_ (by omega) (by omega)
      refine .ws fun more cur h4 => ?_
      have l4 := h4.length_le
      split
      · exact .fail
      · refine (ih.value cur (by omega)).bind (D := 2 + P * (key.length + 1)) (D' := L.node) fun val cur h5 => ?_
        have l5 := h5.length_le
        refine .ws fun more cur h6 => ?_
        have l6 := h6.length_le
        split
        · exact .fail
        · have hp : L.probes acc.length * (key.length + 1) ≤ P * (key.length + 1) := Nat.mul_le_mul_right _ (hL.probes _ (by omega))
          refine Paid.pay (A := 0) (A' := 0) ?_ (by omega) (by omega)
          split
          · exact .fail
          · cases cur with
            | nil => exact .ub
            | cons c s =>
              simp only [List.length_cons] at l6
              simp only
              split
              · have := emplace_grows key val acc
                exact (ih.objectLoop _ s (by omega)).cons (by omega) (by omega)
              · exact .ret _

theorem paidAt (hL : Rates L P N B C) {cfg : Cfg} (hT : StepPos cfg.accel) (n : Nat) : PaidAt L cfg N B C n := by
  have hb := hL.byte
  have hm := hL.mem
  induction n with
  | zero => constructor <;> intros <;> simp only [parseValueE, parseArrayE, arrayLoopE, parseObjectE, objectLoopE] <;> exact .nothing (by simp)
  | succ n ih =>
    constructor
    · intro s hs
      cases s with
      | nil => simp only [parseValueE]; exact .ub
      | cons c s =>
        simp only [parseValueE]
        simp only [List.length_cons] at hs
        split
        · exact .free fun a rest e => parseNull_suffix e
        · split
          · exact boolean_paid hL _
          · split
            · exact number_paid hL _
            · split
              · exact parseStringE_paid hL hT _
              · split
                · next hc => subst hc; exact (ih.array s (by omega)).up (by omega) (by omega)
                · split
                  · next hc => subst hc; exact (ih.object s (by omega)).up (by omega) (by omega)
                  · exact .fail
    · intro s hs
      simp only [parseArrayE, ne_eq, not_true_eq_false, if_false]
      refine Paid.cons (A := 15 + 1) (A' := 8 + L.value * 18 + L.box) ?_ (by omega) (by omega)
      refine .ws fun more cur h1 => .look fun c s hc => ?_
      have l1 := h1.length_le
      subst hc
      split
      · exact ((Paid.ret (A := 0) (A' := 0) _).pay (D := 1) (D' := L.box) (by omega) (by omega)).cons (by omega) (by omega)
      · have := ih.arrayLoop 0 [] (c :: s) (by omega) (Nat.le_refl _)
        refine (this.bind (D := 1) (D' := L.box) fun result cur h2 => ?_).up (by simp [saved]) (by simp [saved])
        refine .ws fun more cur h3 => .look fun c s hc => ?_
        split
        · exact ((Paid.ret (A := 0) (A' := 0) _).pay (D := 1) (D' := L.box) (by omega) (by omega)).cons (by omega) (by omega)
        · exact .fail
    · exact fun cap acc s hs hc => arrayLoop_paid hL ih cap acc s hs hc
    · intro s hs
      simp only [parseObjectE, ne_eq, not_true_eq_false, if_false]
      refine Paid.cons (A := 0 + 1) (A' := 0 + L.box) ?_ (by omega) (by omega)
      refine .ws fun more cur h1 => .look fun c s hc => ?_
      have l1 := h1.length_le
      subst hc
      split
      · exact ((Paid.ret (A := 0) (A' := 0) _).pay (D := 1) (D' := L.box) (by omega) (by omega)).cons (by omega) (by omega)
      · refine (ih.objectLoop [] (c :: s) (by simp only [List.length_nil]; omega)).bind (D := 1) (D' := L.box) fun result cur h2 => ?_
        refine .ws fun more cur h3 => .look fun c s hc => ?_
        split
        · exact ((Paid.ret (A := 0) (A' := 0) _).pay (D := 1) (D' := L.box) (by omega) (by omega)).cons (by omega) (by omega)
        · exact .fail
    · exact fun acc s hs => objectLoop_paid hL hT ih acc s hs

theorem parseRunE_paid (hL : Rates L P N B C) {cfg : Cfg} (hT : StepPos cfg.accel) (n : Nat) (s : Bytes) (hs : s.length ≤ N) : Paid B C none0 none0 1 0 s (parseRunE L cfg n s) := by
  simp only [parseRunE]
  refine .ws fun more cur h1 => .look fun c s hc => ?_
  have l1 := h1.length_le
  subst hc
  simp only [List.length_cons] at l1
  refine (Paid.bind (X := none0) (Y := none0) (A := 0) (A' := 0) (D := 1) (D' := 0) ?_ fun v cur _ => ?_).up (by omega) (by omega)
  · split
    · next hc => subst hc; exact (paidAt hL hT n).array s (by omega)
    · split
      · next hc => subst hc; exact (paidAt hL hT n).object s (by omega)
      · exact .fail
  · refine .ws fun more cur _ => ?_
    split
    · exact .fail
    · exact (Paid.ret (A := 0) (A' := 0) _).pay (by omega) (by omega)

end Meojson
