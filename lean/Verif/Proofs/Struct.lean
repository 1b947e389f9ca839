import Verif.Proofs.Convert

/-! # Proofs: members of structs and alternatives of variants -/

set_option autoImplicit false

namespace Meojson
open Spec RawObject

theorem ReadUpTo.cons {F : Floats} {v : Value} {m : Member} {ms : List Member} {i : Nat} {d x : CVal} {dst dst' : List CVal} (hb : ¬ m.Bad F v) (hr : m.Read F v d x)
    (h : ReadUpTo F v ms i dst dst') : ReadUpTo F v (m :: ms) (i + 1) (d :: dst) (x :: dst') := by
  refine ⟨by simp [h.1], fun j hj => ?_, fun j n hj hn => ?_⟩
  · cases j with
    | zero => omega
    | succ j => simpa using h.2.1 j (by omega)
  · cases j with
    | zero => simp at hn; subst hn; exact ⟨hb, d, x, rfl, rfl, hr⟩
    | succ j => simpa using h.2.2 j n (by omega) (by simpa using hn)

theorem ReadUpTo.zero (F : Floats) (v : Value) (ms : List Member) (dst : List CVal) : ReadUpTo F v ms 0 dst dst :=
  ⟨rfl, fun _ _ => rfl, fun _ _ h => absurd h (Nat.not_lt_zero _)⟩

theorem Outcome.cons {F : Floats} {v : Value} {m : Member} {ms : List Member} {d x : CVal} {dst dst' : List CVal} {r : Option Bytes} (hb : ¬ m.Bad F v) (hr : m.Read F v d x)
    (h : Outcome F v ms dst dst' r) : Outcome F v (m :: ms) (d :: dst) (x :: dst') r := by
  cases r with
  | none => exact ReadUpTo.cons hb hr h
  | some k =>
    obtain ⟨i, n, h1, h2, h3, h4⟩ := h
    exact ⟨i + 1, n, by simpa using h1, h2, h3, .cons hb hr h4⟩

theorem apt_no_step {v : Value} (h : ∀ k w, ¬ Step v (.key k) w) : ∀ (fs : Fields) (k : Option Bytes), fs.Apt k v
  | .done, _ => trivial
  | .opt rest, k => apt_no_step h rest k
  | .key k' rest, _ => apt_no_step h rest (some k')
  | .var _ _ _ rest, _ => ⟨fun w hw => absurd hw (h _ w), apt_no_step h rest none⟩

theorem members_length : ∀ (fs : Fields) (o : Bool) (k : Option Bytes), (fs.membersFrom o k).length = fs.size
  | .done, _, _ => rfl
  | .opt rest, _, k => members_length rest true k
  | .key k' rest, o, _ => members_length rest o (some k')
  | .var _ _ _ rest, _, _ => by simp [Fields.membersFrom, Fields.size, members_length rest]

/-- What reading the members of any struct does if no exception passes through. -/
theorem load_members (F : Floats) : ∀ (fs : Fields) (st : NextState) (v : Value) (_ : v.Sound) (dst : List CVal) (_ : dst.length = fs.size) (r : Option Bytes) (dst' : List CVal),
    fs.load F st v dst = (.ok r, dst') → fs.check F st v = .ok r ∧ Outcome F v (fs.membersFrom st.isOptional st.overrideKey) dst dst' r
  | .done, st, v, _, dst, _, r, dst', h => by
    simp only [Fields.load, Prod.mk.injEq, Out.ok.injEq] at h
    obtain ⟨rfl, rfl⟩ := h
    exact ⟨by simp [Fields.check], ReadUpTo.zero F v [] dst⟩
  | .opt rest, st, v, hv, dst, hd, r, dst', h => by
    unfold Fields.load at h
    unfold Fields.check
    exact load_members F rest { st with isOptional := true } v hv dst hd r dst' h
  | .key k rest, st, v, hv, dst, hd, r, dst', h => by
    unfold Fields.load at h
    unfold Fields.check
    exact load_members F rest { st with overrideKey := some k } v hv dst hd r dst' h
  | .var name d t rest, st, v, hv, x :: dst, hd, r, dst', h => by
    obtain ⟨o, ho, hw, hs⟩ := findKey_step hv (st.keyFor name)
    have ih := load_members F rest {} v hv dst (by simpa [Fields.size] using hd)
    have hk : (Fields.var name d t rest).membersFrom st.isOptional st.overrideKey = ⟨st.keyFor name, st.isOptional, t⟩ :: rest.membersFrom false none := by
      unfold NextState.keyFor; cases st.overrideKey <;> rfl
    rw [hk]
    unfold Fields.check
    unfold Fields.load at h
    simp only [ho] at h
    simp only [ho, Out.noexcept, Out.bind_ok]
    cases o with
    | none =>
      have hno : ∀ w, ¬ Step v (.key (st.keyFor name)) w := fun w h => by simpa using (hw w).2 h
      by_cases hopt : st.isOptional
      · simp only [hopt, if_true, Prod.mk.injEq] at h ⊢
        obtain ⟨h1, rfl⟩ := h
        obtain ⟨h2, h3⟩ := ih r _ (Prod.ext h1 rfl)
        refine ⟨h2, Outcome.cons ?_ ?_ h3⟩
        · rintro (⟨_, h⟩ | ⟨w, h, _⟩)
          · cases h
          · exact hno w h
        · exact .inr ⟨hno, rfl, rfl⟩
      · simp only [hopt, Bool.false_eq_true, if_false, Prod.mk.injEq, Out.ok.injEq] at h ⊢
        obtain ⟨rfl, rfl⟩ := h
        exact ⟨rfl, 0, _, rfl, rfl, .inl ⟨hno, rfl⟩, .zero ..⟩
    | some w =>
      have hst := (hw w).1 rfl
      have hun : ∀ w', Step v (.key (st.keyFor name)) w' → w' = w := fun w' h => by simpa using ((hw w').2 h).symm
      obtain ⟨b, hb⟩ := is_total F t w (hs w rfl)
      cases b
      · simp only [hb, Prod.mk.injEq, Out.ok.injEq] at h
        obtain ⟨rfl, rfl⟩ := h
        exact ⟨by simp [hb], 0, _, rfl, rfl, .inr ⟨w, hst, hb⟩, .zero ..⟩
      · rcases as_total F t w (hs w rfl) with ⟨y, hy⟩ | hy
        · simp only [hb, hy, Prod.mk.injEq] at h
          obtain ⟨h1, rfl⟩ := h
          obtain ⟨h2, h3⟩ := ih r _ (Prod.ext h1 rfl)
          refine ⟨by simpa [hb] using h2, Outcome.cons ?_ ?_ h3⟩
          · rintro (⟨h, _⟩ | ⟨w', h, h'⟩)
            · exact h w hst
            · rw [hun w' h] at h'
              have := hb.symm.trans h'
              simp at this
          · exact .inl ⟨w, hst, hy⟩
        · simp [hb, hy] at h

/-- The first alternative that fits. -/
theorem any_first (F : Floats) : ∀ (ts : Tys) (j : Nat) (v : Value) (_ : v.Sound) (_ : ts.AptAny v),
    (∃ i t x, ts.get? i = some t ∧ t.is F v = .ok true ∧ (∀ i' t', i' < i → ts.get? i' = some t' → t'.is F v = .ok false) ∧ t.as F v = .ok x ∧
      ts.isAny F v = .ok true ∧ ts.asAny F j v = .ok (.alt (j + i) x)) ∨
    ((∀ i t, ts.get? i = some t → t.is F v = .ok false) ∧ ts.isAny F v = .ok false ∧ ts.asAny F j v = .throw .json)
  | .nil, j, v, hv, _ => by
    refine .inr ⟨fun i t h => by simp [Tys.get?] at h, by simp [Tys.isAny], ?_⟩
    unfold Tys.asAny
    cases sound_shape hv <;> rfl
  | .cons t ts, j, v, hv, ht => by
    rcases is_as F t v hv ht.1 with ⟨h1, x, h2⟩ | ⟨h1, h2⟩
    · exact .inl ⟨0, t, x, rfl, h1, fun _ _ h => absurd h (Nat.not_lt_zero _), h2, by simp [Tys.isAny, h1], by simp [Tys.asAny, h1, h2]⟩
    · rcases any_first F ts (j + 1) v hv ht.2 with ⟨i, u, x, h3, h4, h5, h6, h7, h8⟩ | ⟨h3, h4, h5⟩
      · refine .inl ⟨i + 1, u, x, h3, h4, ?_, h6, by simpa [Tys.isAny, h1] using h7, ?_⟩
        · intro i' t' hi ht'
          cases i' with
          | zero => cases ht'; exact h1
          | succ i' => exact h5 i' t' (by omega) ht'
        · simp only [Tys.asAny, h1, Out.bind_ok, Bool.false_eq_true, if_false]
          rw [h8]; congr 2; omega
      · refine .inr ⟨?_, by simpa [Tys.isAny, h1] using h4, by simpa [Tys.asAny, h1] using h5⟩
        intro i t' ht'
        cases i with
        | zero => cases ht'; exact h1
        | succ i => exact h3 i t' ht'

end Meojson
