import Verif.Tests.Serializing

/-!
# C76: the README

The outputs that README_en.md (and README.md, with the same code) promises in comments, in a build without `MEOJSON_KEEP_FLOATING_PRECISION`.
The statements of the example are those of `sample/sample.cpp` up to layout, and are run in the memory model in `Verif.Tests.Serializing`.
-/

set_option autoImplicit false

namespace Meojson.Readme
open Value Mem Tests

/-- Conversions in the build the README describes. -/
def N : Floats := floats false [0x2e]

/-- `json::value(<double>)` -/
def double (s : Bytes) : Value := .str .number (N.print .double (flt .double s))

def run (ops : List Op) : Value := (after ops).getD .invalid

/-- README_en.md:29-43 -/
def j : Value := run (
  set [] b!"pi" (double b!"3.14") ++ set [] b!"happy" (.ofBool true) ++ [.index (at_ []) b!"answer"] ++ set [b!"answer"] b!"everything" (.ofInt 42) ++
  set [] b!"object" (.ofObject (object [(b!"currency", ofText b!"USD"), (b!"value", double b!"42.99")])) ++
  set [] b!"set" (fromC (.set setOf (.int cInt)) (.list [.int 1, .int 2, .int 3])) ++ set [] b!"map" (fromC crazy crazyValue))

/-- 109-119 -/
def myStruct : Ty := .struct (.var b!"x" (.int 0) (.int cInt) <| .var b!"vec" (.list []) (.seq (.float .double)) <| .var b!"map" (.map []) crazy .done)
def mine : CVal := .list [.int 0, .list [.flt (flt .double b!"0.5")], crazyValue]

/-- 138-144 -/
def outter : Ty := .struct (.var b!"outter_a" (.int 10) (.int cInt) <| .var b!"my_vec" (.list []) (.seq myStruct) .done)

def make (t : Ty) (x : CVal) : Out Value := (t.store N .constLv x).bind fun r => .ok r.1

/-- 250-266 -/
def value : Value := (parse none content).getD .invalid

/-- 349-355; the comments of README.md are Chinese. -/
def contentC : Bytes := b!"
// This is a Json with comments
{
  \"name\": \"MistEO\", /* We can add comments */
  \"pi\": 3.14,       // and trailing commas!
}"

def valueC : Value := (parsec none contentC).getD .invalid

/-- `v[k]`; the key exists -/
def at' (k : Bytes) (v : Value) : Out Value := (indexKey k v).2

/-- Something the README says is printed or stored, and where. -/
structure Promise where
  line : Nat
  /-- what the code does -/
  made : Out Bytes
  /-- what the README says -/
  said : Bytes

def promises : List Promise := [
  ⟨47, j.stream, b!"{\"answer\":{\"everything\":42},\"happy\":true,\"map\":{\"key_1\":[{\"inner_key_1\":[7,8,9]},{\"inner_key_2\":[10]}]},\"object\":{\"currency\":\"USD\",\"value\":42.990000},\"pi\":3.140000,\"set\":[1,2,3]}"⟩,
  ⟨88, (make Color (.enum 1)).bind stream, b!"\"Red\""⟩,
  ⟨128, (make myStruct mine).bind stream, b!"{\"map\":{\"key_1\":[{\"inner_key_1\":[7,8,9]},{\"inner_key_2\":[10]}]},\"vec\":[0.500000],\"x\":0}"⟩,
  ⟨152, (make outter (.list [.int 10, .list [mine]])).bind dumps,
    b!"{\"my_vec\":[{\"map\":{\"key_1\":[{\"inner_key_1\":[7,8,9]},{\"inner_key_2\":[10]}]},\"vec\":[0.500000],\"x\":0}],\"outter_a\":10}"⟩,
  ⟨279, (at' b!"repo" value).bind asString, b!"meojson"⟩,
  ⟨283, (at' b!"author" value).bind fun v => v.asObject.bind fun ms => ms.foldr (fun m r => m.2.asString.bind fun h => r.bind fun t => .ok (m.1 ++ b!"'s homepage: " ++ h ++ b!"\n" ++ t)) (.ok []),
    b!"ChingCdesu's homepage: https://github.com/ChingCdesu\nMistEO's homepage: https://github.com/MistEO\n"⟩,
  ⟨292, (value.getText (.key b!"maybe_exists") (.cstr (some b!"default_value"))).bind fun r => .ok r.2, b!"default_value"⟩,
  ⟨302, getTextPath (.cstr (some b!"default_value")) [.key b!"A_obj", .key b!"B_arr", .pos 1, .key b!"C_str"] value, b!"you found me!"⟩,
  ⟨340, (at' b!"hi" (jvalueLit none b!"{\"hi\":\"literals\"}")).bind stream, b!"\"literals\""⟩,
  ⟨363, (at' b!"name" valueC).bind stream, b!"MistEO"⟩,
  ⟨365, (at' b!"name" valueC).bind fun v => (indexPos 0 v).2.bind asString, b!"MistEO"⟩]

/-- The claim: what the README says is what happens. -/
def C76Claim : Prop := ∀ p ∈ promises, p.made = .ok p.said

/-- It is, but for four places. -/
theorem C76_others_partial : promises.filterMap (fun p => if p.made = .ok p.said then none else some p.line) = [47, 128, 363, 365] := by decide +kernel

theorem C76_refuted : ¬ C76Claim := fun h => by
  have h1 : promises.filterMap (fun p => if p.made = .ok p.said then none else some p.line) = [] := by
    rw [List.filterMap_eq_nil_iff]
    intro p hp
    rw [if_pos (h p hp)]
  rw [C76_others_partial] at h1
  cases h1

/-- In the first two the text is that of `dumps()`, on one line; `<<` writes that of `dumps(4)`. -/
theorem C76_compact : j.dumps = .ok b!"{\"answer\":{\"everything\":42},\"happy\":true,\"map\":{\"key_1\":[{\"inner_key_1\":[7,8,9]},{\"inner_key_2\":[10]}]},\"object\":{\"currency\":\"USD\",\"value\":42.990000},\"pi\":3.140000,\"set\":[1,2,3]}" ∧
    (make myStruct mine).bind dumps = .ok b!"{\"map\":{\"key_1\":[{\"inner_key_1\":[7,8,9]},{\"inner_key_2\":[10]}]},\"vec\":[0.500000],\"x\":0}" ∧
    (make myStruct mine).bind stream = .ok b!"{
    \"map\": {
        \"key_1\": [
            {
                \"inner_key_1\": [
                    7,
                    8,
                    9
                ]
            },
            {
                \"inner_key_2\": [
                    10
                ]
            }
        ]
    },
    \"vec\": [
        0.500000
    ],
    \"x\": 0
}" := by decide +kernel

/-- In the third the quotes are missing in the README; in the fourth a string is indexed, which throws. -/
theorem C76_name : valueC = .ofObject [(b!"name", ofText b!"MistEO"), (b!"pi", .str .number b!"3.14")] ∧ (ofText b!"MistEO").stream = .ok b!"\"MistEO\"" ∧
    (ofText b!"MistEO").asString = .ok b!"MistEO" ∧ (indexPos 0 (ofText b!"MistEO")).2 = .throw .json := by decide +kernel

theorem bind_ok {α β : Type} {x : Out α} {f : α → Out β} {b : β} (h : x.bind f = .ok b) : ∃ a, x = .ok a ∧ f a = .ok b := by
  cases x with
  | ok a => exact ⟨a, rfl, h⟩
  | throw e => cases h
  | ub => cases h

mutual
/-- The text on several lines is not shorter than that on one line. -/
theorem formatTo_length (n : Nat) : ∀ (times : Nat) (v : Value) (t s : Bytes), formatTo n times v = .ok t → dumpTo v = .ok s → s.length ≤ t.length
  | times, .str ty w, t, s, h, g => by cases ty <;> simp only [formatTo] at h <;> first | (rw [g] at h; cases h; exact Nat.le_refl _) | cases h
  | times, .arrNull ty, t, s, h, g => by simp only [formatTo] at h; rw [g] at h; cases h; exact Nat.le_refl _
  | times, .objNull ty, t, s, h, g => by simp only [formatTo] at h; rw [g] at h; cases h; exact Nat.le_refl _
  | times, .arr ty vs, t, s, h, g => by
    by_cases e : ty = .array
    · subst e
      simp only [formatTo] at h
      simp only [dumpTo] at g
      obtain ⟨t', h1, h2⟩ := bind_ok h
      obtain ⟨s', g1, g2⟩ := bind_ok g
      cases h2; cases g2
      have := formatElems_length n times vs t' s' h1 g1
      simp only [List.length_append, List.length_cons, List.length_nil]; omega
    · have : formatTo n times (.arr ty vs) = dumpTo (.arr ty vs) := by cases ty <;> first | rfl | exact absurd rfl e
      rw [this, g] at h; cases h; exact Nat.le_refl _
  | times, .obj ty ms, t, s, h, g => by
    by_cases e : ty = .object
    · subst e
      simp only [formatTo] at h
      simp only [dumpTo] at g
      obtain ⟨t', h1, h2⟩ := bind_ok h
      obtain ⟨s', g1, g2⟩ := bind_ok g
      cases h2; cases g2
      have := formatMembers_length n times ms t' s' h1 g1
      simp only [List.length_append, List.length_cons, List.length_nil]; omega
    · have : formatTo n times (.obj ty ms) = dumpTo (.obj ty ms) := by cases ty <;> first | rfl | exact absurd rfl e
      rw [this, g] at h; cases h; exact Nat.le_refl _
theorem formatElems_length (n : Nat) : ∀ (times : Nat) (vs : List Value) (t s : Bytes), formatElems n times vs = .ok t → dumpElems vs = .ok s → s.length ≤ t.length
  | times, [], t, s, h, g => by simp only [formatElems] at h; simp only [dumpElems] at g; cases h; cases g; exact Nat.le_refl _
  | times, v :: vs, t, s, h, g => by
    simp only [formatElems] at h
    simp only [dumpElems] at g
    obtain ⟨t1, h1, h⟩ := bind_ok h
    obtain ⟨t2, h2, h⟩ := bind_ok h
    obtain ⟨s1, g1, g⟩ := bind_ok g
    obtain ⟨s2, g2, g⟩ := bind_ok g
    cases h; cases g
    have := formatTo_length n _ v t1 s1 h1 g1
    have := formatElems_length n times vs t2 s2 h2 g2
    simp only [List.length_append]; omega
theorem formatMembers_length (n : Nat) : ∀ (times : Nat) (ms : List (Bytes × Value)) (t s : Bytes), formatMembers n times ms = .ok t → dumpMembers ms = .ok s → s.length ≤ t.length
  | times, [], t, s, h, g => by simp only [formatMembers] at h; simp only [dumpMembers] at g; cases h; cases g; exact Nat.le_refl _
  | times, (k, v) :: ms, t, s, h, g => by
    simp only [formatMembers] at h
    simp only [dumpMembers] at g
    obtain ⟨t1, h1, h⟩ := bind_ok h
    obtain ⟨t2, h2, h⟩ := bind_ok h
    obtain ⟨s1, g1, g⟩ := bind_ok g
    obtain ⟨s2, g2, g⟩ := bind_ok g
    cases h; cases g
    have := formatTo_length n _ v t1 s1 h1 g1
    have := formatMembers_length n times ms t2 s2 h2 g2
    simp only [List.length_append, List.length_cons, List.length_nil]; omega
end

/-- In general no array and no object, not even an empty one, is written by `<<` as by `dumps()`. -/
theorem C76_never (v : Value) (t : Bytes) (hv : v.type = .array ∨ v.type = .object) (h : v.stream = .ok t) : v.dumps ≠ .ok t := by
  intro g
  simp only [stream] at h
  simp only [dumps] at g
  cases v with
  | str ty w => rcases hv with e | e <;> (simp only [type] at e; subst e; simp [formatTo] at h)
  | arrNull ty => rcases hv with e | e <;> (simp only [type] at e; subst e; simp [dumpTo] at g)
  | objNull ty => rcases hv with e | e <;> (simp only [type] at e; subst e; simp [dumpTo] at g)
  | arr ty vs =>
    rcases hv with e | e <;> simp only [type] at e <;> subst e
    · simp only [formatTo] at h
      simp only [dumpTo] at g
      obtain ⟨t', h1, h2⟩ := bind_ok h
      obtain ⟨s', g1, g2⟩ := bind_ok g
      have := formatElems_length 4 0 vs t' s' h1 g1
      rw [← g2] at h2
      have := congrArg List.length (Out.ok.inj h2)
      simp only [List.length_append, List.length_cons, List.length_nil] at this; omega
    · simp [dumpTo] at g
  | obj ty ms =>
    rcases hv with e | e <;> simp only [type] at e <;> subst e
    · simp [dumpTo] at g
    · simp only [formatTo] at h
      simp only [dumpTo] at g
      obtain ⟨t', h1, h2⟩ := bind_ok h
      obtain ⟨s', g1, g2⟩ := bind_ok g
      have := formatMembers_length 4 0 ms t' s' h1 g1
      rw [← g2] at h2
      have := congrArg List.length (Out.ok.inj h2)
      simp only [List.length_append, List.length_cons, List.length_nil] at this; omega

example : (ofArray []).stream = .ok b!"[\n]" ∧ (ofArray []).dumps = .ok b!"[]" := by decide +kernel

/-- What the README says about conversions: 95-103, 166-178, 289, 309, 325-330. -/
theorem C76_conversions : isA Color (ofText b!"blue") ∧ gives (Color.as N (ofText b!"blue")) (.enum 4) ∧ gives (Color.as N (ofText b!"Green")) (.enum 2) ∧ gives (Color.as N (.ofInt 2)) (.enum 2) ∧
    gives ((at' b!"pi" j).bind (Ty.as N (.float .double))) (.flt (flt .double b!"3.14")) ∧
    gives ((at' b!"map" j).bind (crazy.as N)) crazyValue ∧
    gives ((make myStruct mine).bind (myStruct.as N)) mine ∧
    gives ((at' b!"num" value).bind (Ty.as N (.float .double))) (.flt (flt .double b!"3.1416")) ∧
    gives ((at' b!"list" value).bind ((Ty.seq (.int cInt)).as N)) (.list [.int 1, .int 2, .int 3]) ∧
    (at' b!"happy" j).bind (fun v => (Ty.seq (.int cInt)).is N v) = .ok false := by decide +kernel

end Meojson.Readme
