import Verif.Model.AsMemory
import Verif.Spec.TakeMemory

/-! Conversions from a const value when memory runs out: they end as with enough memory, or because a request was refused. -/

set_option autoImplicit false

namespace Meojson
open Spec Value

theorem copier_grant (C : Copier) : ∀ (k n : Nat), (∃ m, n ≤ m ∧ m ≤ n + k ∧ C.grant k n = (true, m)) ∨ (∃ m i, n ≤ i ∧ i < m ∧ m ≤ n + k ∧ C.gives i = false ∧ C.grant k n = (false, m))
  | 0, n => .inl ⟨n, Nat.le_refl _, Nat.le_refl _, rfl⟩
  | k + 1, n => by
    rw [Copier.grant]
    split
    · rcases copier_grant C k (n + 1) with ⟨m, a, b, c⟩ | ⟨m, i, a, b, c, d, e⟩
      · exact .inl ⟨m, by omega, by omega, c⟩
      · exact .inr ⟨m, i, by omega, b, by omega, d, e⟩
    · rename_i h
      exact .inr ⟨n + 1, n, Nat.le_refl _, by omega, by omega, by simpa using h, rfl⟩

/-- A request between these numbers was refused. -/
def Refused (C : Copier) (n m : Nat) : Prop := ∃ i, n ≤ i ∧ i < m ∧ C.gives i = false

/-- `r`, which begins with request `n`, ends as `s` does, or because a request was refused. -/
structure Goes {α : Type} (C : Copier) (n : Nat) (r : Out α × Nat) (s : Out α) : Prop where
  mono : n ≤ r.2
  cases : r.1 = s ∨ (r.1 = .throw .badAlloc ∧ Refused C n r.2)

variable {F : Floats} {C : Copier}

theorem Refused.mono {n m n' m' : Nat} (h : Refused C n m) (a : n' ≤ n) (b : m ≤ m') : Refused C n' m' := by
  obtain ⟨i, h1, h2, h3⟩ := h
  exact ⟨i, by omega, by omega, h3⟩

theorem ask_cases {α : Type} (k : Nat) (f : Nat → Out α × Nat) (n : Nat) :
    (∃ m, n ≤ m ∧ C.ask k f n = f m) ∨ (∃ m, n ≤ m ∧ Refused C n m ∧ C.ask k f n = (.throw .badAlloc, m)) := by
  rcases copier_grant C k n with ⟨m, a, _, b⟩ | ⟨m, i, a, b, _, c, d⟩
  · exact .inl ⟨m, a, by rw [Copier.ask, b]⟩
  · exact .inr ⟨m, by omega, ⟨i, a, b, c⟩, by rw [Copier.ask, d]⟩

namespace Goes
variable {α β : Type} {n : Nat}

theorem here {s : Out α} : Goes C n (s, n) s := ⟨Nat.le_refl _, .inl rfl⟩

theorem ask {k : Nat} {f : Nat → Out α × Nat} {s : Out α} (h : ∀ m, n ≤ m → Goes C m (f m) s) : Goes C n (C.ask k f n) s := by
  rcases ask_cases (C := C) k f n with ⟨m, a, e⟩ | ⟨m, a, b, e⟩ <;> rw [e]
  · obtain ⟨h1, h2⟩ := h m a
    exact ⟨Nat.le_trans a h1, h2.imp_right fun ⟨x, y⟩ => ⟨x, y.mono a (Nat.le_refl _)⟩⟩
  · exact ⟨a, .inr ⟨rfl, b⟩⟩

theorem complain : Goes C n (C.complain n) (.throw .json : Out α) := by
  refine ⟨by simp [Copier.complain], ?_⟩
  cases h : C.gives n
  · exact .inr ⟨by simp [Copier.complain, h], n, Nat.le_refl _, by simp [Copier.complain], h⟩
  · exact .inl (by simp [Copier.complain, h])

theorem plain {k : Nat} {s : Out α} : Goes C n (C.plain k s n) s := by
  refine ask fun m _ => ?_
  rcases s with x | e | _
  · exact here
  · cases e
    case json => exact complain
    all_goals exact here
  · exact here

theorem andThen {r : Out α × Nat} {s : Out α} {f : α → Nat → Out β × Nat} {g : α → Out β} (h : Goes C n r s) (h' : ∀ x m, n ≤ m → Goes C m (f x m) (g x)) :
    Goes C n (Meojson.andThen r f) (s.bind g) := by
  obtain ⟨o, m⟩ := r
  obtain ⟨h1, h2⟩ := h
  simp only at h1 h2
  rcases h2 with e | ⟨e, k⟩
  · subst e
    cases o with
    | ok x =>
      obtain ⟨k1, k2⟩ := h' x m h1
      exact ⟨Nat.le_trans h1 k1, k2.imp_right fun ⟨x, y⟩ => ⟨x, y.mono h1 (Nat.le_refl _)⟩⟩
    | throw e => exact ⟨h1, .inl rfl⟩
    | ub => exact ⟨h1, .inl rfl⟩
  · subst e
    exact ⟨h1, .inr ⟨rfl, k⟩⟩

theorem each {asks : Nat → Nat} {f : α → Nat → Out β × Nat} {g : α → Out β} (h : ∀ x m, Goes C m (f x m) (g x)) :
    ∀ (xs : List α) (i n : Nat), Goes C n (asEachM C asks f i xs n) (eachOf g xs)
  | [], _, _ => here
  | x :: xs, i, n => by
    rw [asEachM, eachOf]
    exact (h x n).andThen fun y m _ => ask fun m _ => (each h xs (i + 1) m).andThen fun _ _ _ => here

end Goes

/-- The same for members: they are as with enough memory, or the first ones are and the others are untouched. -/
structure LoadGoes (C : Copier) (n : Nat) (dst : List CVal) (r : (Out (Option Bytes) × Nat) × List CVal) (s : Out (Option Bytes) × List CVal) : Prop where
  mono : n ≤ r.1.2
  cases : (r.1.1 = s.1 ∧ r.2 = s.2) ∨ (r.1.1 = .throw .badAlloc ∧ Refused C n r.1.2 ∧ ∃ k, r.2 = s.2.take k ++ dst.drop k)

variable (F C)

mutual
theorem asM_goes : ∀ (t : Ty) (v : Value) (n : Nat), Goes C n (t.asM F C v n) (t.as F v)
  | .struct fs, v, n => by
    rw [Ty.asM, Ty.as]
    refine .ask fun m _ => ?_
    obtain ⟨h1, h2⟩ := loadM_goes fs {} v fs.defaults m
    rcases h2 with ⟨a, b⟩ | ⟨a, b, _⟩
    · show Goes C m (andThen (fs.loadM F C {} v fs.defaults m).1 _) _
      refine Goes.andThen ⟨h1, .inl a⟩ fun e m _ => ?_
      cases e with
      | none => rw [b]; exact .here
      | some k => exact .plain
    · show Goes C m (andThen (fs.loadM F C {} v fs.defaults m).1 _) _
      rcases hr : fs.loadM F C {} v fs.defaults m with ⟨⟨o, m'⟩, ys⟩
      rw [hr] at h1 a b
      simp only at h1 a b
      subst a
      exact ⟨h1, .inr ⟨rfl, b⟩⟩
  | .nullable .pointer t, v, n => by
    rw [Ty.asM, Ty.as]
    split
    · exact .here
    · exact (asM_goes t v n).andThen fun x m _ => .ask fun _ _ => .here
  | .nullable .optional t, v, n => by
    rw [Ty.asM, Ty.as]
    exact (asM_goes t v n).andThen fun x m _ => .here
  | .seq t, v, n => by
    rw [Ty.asM, Ty.as]
    refine Goes.plain.andThen fun vs m _ => ?_
    split
    · exact .ask fun m _ => (Goes.each (asM_goes t) vs 0 m).andThen fun _ _ _ => .here
    · exact (Goes.each (asM_goes t) vs 0 m).andThen fun _ _ _ => .here
  | .set lt t, v, n => by
    rw [Ty.asM, Ty.as]
    exact Goes.plain.andThen fun vs m _ => (Goes.each (asM_goes t) vs 0 m).andThen fun _ _ _ => .here
  | .fixed k t, v, n => by
    rw [Ty.asM, Ty.as]
    refine Goes.plain.andThen fun vs m _ => ?_
    split
    · exact (Goes.each (asM_goes t) vs 0 m).andThen fun _ _ _ => .here
    · exact .complain
  | .tuple ts, v, n => by
    rw [Ty.asM, Ty.as]
    split
    · exact (asNthM_goes ts 0 v n).andThen fun _ _ _ => .here
    · refine Goes.plain.andThen fun vs m _ => ?_
      split
      · exact (asAllM_goes ts vs m).andThen fun _ _ _ => .here
      · exact .complain
  | .variant ts, v, n => by
    rw [Ty.asM, Ty.as]
    cases ts.chosen with
    | some i => exact (asNthM_goes ts i v n).andThen fun x m _ => .here
    | none => exact asAnyM_goes ts 0 v n
  | .map t, v, n => by
    rw [Ty.asM, Ty.as]
    refine Goes.plain.andThen fun ms m _ => ?_
    exact (Goes.each (fun e m => (asM_goes t e.2 m).andThen (g := fun x => .ok (e.1, x)) fun x m _ => .here) ms 0 m).andThen fun _ _ _ => .here
  | .json, v, n | .jarray, v, n | .jobject, v, n | .string, v, n | .bool, v, n | .int _, v, n | .float _, v, n | .null, v, n | .enum _, v, n | .user _, v, n => by
    rw [Ty.asM]
    · exact .plain
    all_goals (intros; simp_all)
theorem asAllM_goes : ∀ (ts : Tys) (vs : List Value) (n : Nat), Goes C n (ts.asAllM F C vs n) (ts.asAll F vs)
  | .nil, vs, n => by rw [Tys.asAllM, Tys.asAll]; exact .here
  | .cons t ts, [], n => by rw [Tys.asAllM, Tys.asAll]; exact .here
  | .cons t ts, v :: vs, n => by
    rw [Tys.asAllM, Tys.asAll]
    exact (asM_goes t v n).andThen fun x m _ => (asAllM_goes ts vs m).andThen fun _ _ _ => .here
theorem asNthM_goes : ∀ (ts : Tys) (i : Nat) (v : Value) (n : Nat), Goes C n (ts.asNthM F C i v n) (ts.asNth F i v)
  | .nil, i, v, n => by rw [Tys.asNthM, Tys.asNth]; exact .here
  | .cons t ts, 0, v, n => by rw [Tys.asNthM, Tys.asNth]; exact asM_goes t v n
  | .cons t ts, i + 1, v, n => by rw [Tys.asNthM, Tys.asNth]; exact asNthM_goes ts i v n
theorem asAnyM_goes : ∀ (ts : Tys) (i : Nat) (v : Value) (n : Nat), Goes C n (ts.asAnyM F C i v n) (ts.asAny F i v)
  | .nil, i, v, n => by rw [Tys.asAnyM, Tys.asAny]; exact .plain
  | .cons t ts, i, v, n => by
    rw [Tys.asAnyM, Tys.asAny]
    refine Goes.here.andThen fun b m _ => ?_
    split
    · exact (asM_goes t v m).andThen fun _ _ _ => .here
    · exact asAnyM_goes ts (i + 1) v m
theorem loadM_goes : ∀ (fs : Fields) (st : NextState) (v : Value) (dst : List CVal) (n : Nat), LoadGoes C n dst (fs.loadM F C st v dst n) (fs.load F st v dst)
  | .done, st, v, dst, n => by rw [Fields.loadM, Fields.load]; exact ⟨Nat.le_refl _, .inl ⟨rfl, rfl⟩⟩
  | .opt rest, st, v, dst, n => by rw [Fields.loadM, Fields.load]; exact loadM_goes rest _ v dst n
  | .key k rest, st, v, dst, n => by rw [Fields.loadM, Fields.load]; exact loadM_goes rest _ v dst n
  | .var _ _ _ _, st, v, [], n => by rw [Fields.loadM, Fields.load]; exact ⟨Nat.le_refl _, .inl ⟨rfl, rfl⟩⟩
  | .var name _ t rest, st, v, d :: dst, n => by
    rw [Fields.loadM, Fields.load]
    have hmiss : ∀ m, n ≤ m → LoadGoes C n (d :: dst) (C.ask (C.texts (st.keyFor name)) (fun n => (.ok (some (st.keyFor name)), n)) m, d :: dst) (.ok (some (st.keyFor name)), d :: dst) := by
      intro m hm
      obtain ⟨h1, h2⟩ := Goes.ask (C := C) (n := m) (k := C.texts (st.keyFor name)) (f := fun n => (Out.ok (some (st.keyFor name)), n)) fun _ _ => .here
      refine ⟨Nat.le_trans hm h1, ?_⟩
      rcases h2 with h | ⟨h, k⟩
      · exact .inl ⟨h, rfl⟩
      · exact .inr ⟨h, k.mono hm (Nat.le_refl _), 0, rfl⟩
    rcases ask_cases (C := C) (C.texts (st.keyFor name)) (fun n => (v.findKey (st.keyFor name), n)) n with ⟨m, a, e⟩ | ⟨m, a, b, e⟩ <;> rw [e]
    · rcases hf : v.findKey (st.keyFor name) with ow | e | _
      · cases ow with
        | none =>
          simp only
          split
          · obtain ⟨h1, h2⟩ := loadM_goes rest {} v dst m
            refine ⟨Nat.le_trans a h1, ?_⟩
            rcases h2 with ⟨h, h'⟩ | ⟨h, k, j, h'⟩
            · exact .inl ⟨h, congrArg (d :: ·) h'⟩
            · exact .inr ⟨h, k.mono a (Nat.le_refl _), j + 1, congrArg (d :: ·) h'⟩
          · exact hmiss m a
        | some w =>
          simp only
          rcases hi : t.is F w with b | e | _
          · cases b
            · exact hmiss m a
            · simp only
              obtain ⟨h1, h2⟩ := asM_goes t w m
              rcases hr : t.asM F C w m with ⟨o, m'⟩
              rw [hr] at h1 h2
              simp only at h1 h2
              rcases h2 with h | ⟨h, k⟩
              · rw [← h]
                cases o with
                | ok x =>
                  obtain ⟨g1, g2⟩ := loadM_goes rest {} v dst m'
                  refine ⟨Nat.le_trans (Nat.le_trans a h1) g1, ?_⟩
                  rcases g2 with ⟨h, h'⟩ | ⟨h, k, j, h'⟩
                  · exact .inl ⟨h, congrArg (x :: ·) h'⟩
                  · exact .inr ⟨h, k.mono (Nat.le_trans a h1) (Nat.le_refl _), j + 1, congrArg (x :: ·) h'⟩
                | throw e => exact ⟨Nat.le_trans a h1, .inl ⟨rfl, rfl⟩⟩
                | ub => exact ⟨Nat.le_trans a h1, .inl ⟨rfl, rfl⟩⟩
              · subst h
                exact ⟨Nat.le_trans a h1, .inr ⟨rfl, k.mono a (Nat.le_refl _), 0, rfl⟩⟩
          · exact ⟨a, .inl ⟨rfl, rfl⟩⟩
          · exact ⟨a, .inl ⟨rfl, rfl⟩⟩
      · exact ⟨a, .inl ⟨rfl, rfl⟩⟩
      · exact ⟨a, .inl ⟨rfl, rfl⟩⟩
    · exact ⟨a, .inr ⟨rfl, b, 0, rfl⟩⟩
end

end Meojson
