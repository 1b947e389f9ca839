import Verif.Proofs.ParseSound

/-! Between the grammar and the grammar that knows what follows. -/

set_option autoImplicit false

namespace Meojson
open Spec

/-- A grammar that does not look at what follows. -/
theorem lval_forget {D : LDialect} {D' : Dialect} (hw : ∀ w, D.ws w → D'.ws w) (hc : D.trailingComma = true → D'.trailingComma = true)
    (hk : D'.distinctKeys = true → D.distinctKeys = true) (hs : ∀ r t s, D.str r t s → D'.str t s)
    {r t : Text} {j : Doc} (h : LVal D r t j) : Val D' t j := by
  refine LVal.rec (D := D) (motive_1 := fun _ t j _ => Val D' t j) (motive_2 := fun _ t js _ => Elems D' t js)
    (motive_3 := fun _ t ms _ => Members D' t ms) ?_ ?_ ?_ ?_ ?_ ?_ ?_ ?_ ?_ ?_ ?_ ?_ ?_ ?_ ?_ h
  · exact .null
  · exact .true
  · exact .false
  · intro _ _ h; exact .num h
  · intro _ _ _ h; exact .str (hs _ _ _ h)
  · intro _ _ h; exact .arrEmpty (hw _ h)
  · intro _ _ _ _ ih; exact .arr ih
  · intro _ _ h; exact .objEmpty (hw _ h)
  · intro _ _ _ _ hnd ih; exact .obj ih fun h => hnd (hk h)
  · intro _ _ _ _ _ h1 _ h2 ih; exact .last (hw _ h1) ih (hw _ h2)
  · intro _ _ _ _ _ _ hcm h1 _ h2 h3 ih; exact .lastComma (hc hcm) (hw _ h1) ih (hw _ h2) (hw _ h3)
  · intro _ _ _ _ _ _ _ h1 _ h2 _ ih ih'; exact .cons (hw _ h1) ih (hw _ h2) ih'
  · intro _ _ _ _ _ _ _ _ _ h1 hkt h2 h3 _ h4 ih; exact .last (hw _ h1) (hs _ _ _ hkt) (hw _ h2) (hw _ h3) ih (hw _ h4)
  · intro _ _ _ _ _ _ _ _ _ _ hcm h1 hkt h2 h3 _ h4 h5 ih
    exact .lastComma (hc hcm) (hw _ h1) (hs _ _ _ hkt) (hw _ h2) (hw _ h3) ih (hw _ h4) (hw _ h5)
  · intro _ _ _ _ _ _ _ _ _ _ _ h1 hkt h2 h3 _ h4 _ ih ih'
    exact .cons (hw _ h1) (hs _ _ _ hkt) (hw _ h2) (hw _ h3) ih (hw _ h4) ih'

theorem val_locate {D : Dialect} {D' : LDialect} (hw : ∀ w, D.ws w → D'.ws w) (hc : D.trailingComma = true → D'.trailingComma = true)
    (hk : D'.distinctKeys = true → D.distinctKeys = true) (hs : ∀ r t s, D.str t s → D'.str r t s)
    {t : Text} {j : Doc} (h : Val D t j) : ∀ r, LVal D' r t j := by
  refine Val.rec (D := D) (motive_1 := fun t j _ => ∀ r, LVal D' r t j) (motive_2 := fun t js _ => ∀ r, LElems D' r t js)
    (motive_3 := fun t ms _ => ∀ r, LMembers D' r t ms) ?_ ?_ ?_ ?_ ?_ ?_ ?_ ?_ ?_ ?_ ?_ ?_ ?_ ?_ ?_ h
  · intro _; exact .null
  · intro _; exact .true
  · intro _; exact .false
  · intro _ h _; exact .num h
  · intro _ _ h _; exact .str (hs _ _ _ h)
  · intro _ h _; exact .arrEmpty (hw _ h)
  · intro _ _ _ ih _; exact .arr (ih _)
  · intro _ h _; exact .objEmpty (hw _ h)
  · intro _ _ _ hnd ih _; exact .obj (ih _) fun h => hnd (hk h)
  · intro _ _ _ _ h1 _ h2 ih _; exact .last (hw _ h1) (ih _) (hw _ h2)
  · intro _ _ _ _ _ hcm h1 _ h2 h3 ih _; exact .lastComma (hc hcm) (hw _ h1) (ih _) (hw _ h2) (hw _ h3)
  · intro _ _ _ _ _ _ h1 _ h2 _ ih ih' _; exact .cons (hw _ h1) (ih _) (hw _ h2) (ih' _)
  · intro _ _ _ _ _ _ _ _ h1 hkt h2 h3 _ h4 ih _; exact .last (hw _ h1) (hs _ _ _ hkt) (hw _ h2) (hw _ h3) (ih _) (hw _ h4)
  · intro _ _ _ _ _ _ _ _ _ hcm h1 hkt h2 h3 _ h4 h5 ih _
    exact .lastComma (hc hcm) (hw _ h1) (hs _ _ _ hkt) (hw _ h2) (hw _ h3) (ih _) (hw _ h4) (hw _ h5)
  · intro _ _ _ _ _ _ _ _ _ _ h1 hkt h2 h3 _ h4 _ ih ih' _
    exact .cons (hw _ h1) (hs _ _ _ hkt) (hw _ h2) (hw _ h3) (ih _) (hw _ h4) (ih' _)

/-- A relation between texts that may follow. -/
def Prefixed (R : Text → Text → Prop) : Prop := ∀ a r r', R r r' → R (a ++ r) (a ++ r')

theorem Prefixed.cons {R : Text → Text → Prop} (h : Prefixed R) {c : UInt8} {r r' : Text} (hr : R r r') : R (c :: r) (c :: r') := h [c] r r' hr

/-- From one dialect to another, and from one continuation to another. What follows a container follows no string in it: a bracket stands between. -/
theorem lval_imp_root {D D' : LDialect} {R : Text → Text → Prop} (hR : Prefixed R) (hw : ∀ w, D.ws w → D'.ws w)
    (hc : D.trailingComma = true → D'.trailingComma = true) (hk : D'.distinctKeys = true → D.distinctKeys = true)
    (hs : ∀ r r' t s, R r r' → D.str r t s → D'.str r' t s) {r t : Text} {j : Doc} (h : LVal D r t j) :
    ∀ r', (R r r' ∨ j.isContainer = true ∧ ∀ c, R (c :: r) (c :: r')) → LVal D' r' t j := by
  refine LVal.rec (D := D) (motive_1 := fun r t j _ => ∀ r', (R r r' ∨ j.isContainer = true ∧ ∀ c, R (c :: r) (c :: r')) → LVal D' r' t j) (motive_2 := fun r t js _ => ∀ r', R r r' → LElems D' r' t js)
    (motive_3 := fun r t ms _ => ∀ r', R r r' → LMembers D' r' t ms) ?_ ?_ ?_ ?_ ?_ ?_ ?_ ?_ ?_ ?_ ?_ ?_ ?_ ?_ ?_ h
  · intro _ _ _; exact .null
  · intro _ _ _; exact .true
  · intro _ _ _; exact .false
  · intro _ _ h _ _; exact .num h
  · intro _ _ _ h _ hr; exact .str (hs _ _ _ _ (hr.resolve_right fun h => by simp [Doc.isContainer] at h) h)
  · intro _ _ h _ _; exact .arrEmpty (hw _ h)
  · intro _ _ _ _ ih _ hr; exact .arr (ih _ (hr.elim (hR.cons ·) (·.2 _)))
  · intro _ _ h _ _; exact .objEmpty (hw _ h)
  · intro _ _ _ _ hnd ih _ hr; exact .obj (ih _ (hr.elim (hR.cons ·) (·.2 _))) fun h => hnd (hk h)
  · intro _ _ _ _ _ h1 _ h2 ih _ hr; exact .last (hw _ h1) (ih _ (.inl (hR _ _ _ hr))) (hw _ h2)
  · intro _ _ _ _ _ _ hcm h1 _ h2 h3 ih _ hr
    exact .lastComma (hc hcm) (hw _ h1) (ih _ (.inl (hR _ _ _ (hR.cons (hR _ _ _ hr))))) (hw _ h2) (hw _ h3)
  · intro _ _ _ _ _ _ _ h1 _ h2 _ ih ih' _ hr
    exact .cons (hw _ h1) (ih _ (.inl (hR _ _ _ (hR.cons (hR _ _ _ hr))))) (hw _ h2) (ih' _ hr)
  · intro _ _ _ _ _ _ _ _ _ h1 hkt h2 h3 _ h4 ih _ hr
    exact .last (hw _ h1) (hs _ _ _ _ (hR _ _ _ (hR.cons (hR _ _ _ (hR _ _ _ (hR _ _ _ hr))))) hkt) (hw _ h2) (hw _ h3) (ih _ (.inl (hR _ _ _ hr))) (hw _ h4)
  · intro _ _ _ _ _ _ _ _ _ _ hcm h1 hkt h2 h3 _ h4 h5 ih _ hr
    exact .lastComma (hc hcm) (hw _ h1) (hs _ _ _ _ (hR _ _ _ (hR.cons (hR _ _ _ (hR _ _ _ (hR _ _ _ (hR.cons (hR _ _ _ hr))))))) hkt) (hw _ h2) (hw _ h3) (ih _ (.inl (hR _ _ _ (hR.cons (hR _ _ _ hr))))) (hw _ h4) (hw _ h5)
  · intro _ _ _ _ _ _ _ _ _ _ _ h1 hkt h2 h3 _ h4 _ ih ih' _ hr
    exact .cons (hw _ h1) (hs _ _ _ _ (hR _ _ _ (hR.cons (hR _ _ _ (hR _ _ _ (hR _ _ _ (hR.cons (hR _ _ _ hr))))))) hkt) (hw _ h2) (hw _ h3) (ih _ (.inl (hR _ _ _ (hR.cons (hR _ _ _ hr))))) (hw _ h4) (ih' _ hr)

theorem lval_imp {D D' : LDialect} {R : Text → Text → Prop} (hR : Prefixed R) (hw : ∀ w, D.ws w → D'.ws w)
    (hc : D.trailingComma = true → D'.trailingComma = true) (hk : D'.distinctKeys = true → D.distinctKeys = true)
    (hs : ∀ r r' t s, R r r' → D.str r t s → D'.str r' t s) {r t : Text} {j : Doc} (h : LVal D r t j) (r' : Text) (hr : R r r') : LVal D' r' t j :=
  lval_imp_root hR hw hc hk hs h r' (.inl hr)

/-- What the parser reads belongs to the lenient language. -/
theorem lval_lenient {cfg : Cfg} (ha : AccelOk cfg.accel) {r t : Text} {j : Doc} (h : LVal (dialectOf cfg) r t j) :
    Val (lenient cfg.jsonc cfg.accel.isSome) t j := by
  refine lval_forget (fun _ h => h) (fun h => h) (fun h => h) ?_ h
  intro r t s hs
  obtain ⟨t', e, ht'⟩ := parseStdstring_sound ha hs
  rw [List.append_cancel_right e]
  exact ht'

end Meojson
