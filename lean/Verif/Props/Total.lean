import Verif.Props.Misc
import Verif.Props.Net
import Verif.Types.DateTime

/-!
# C67: failures of scalar conversions
-/
namespace Verif.Types
open Verif.Py

/-- The exception is a schematics field error (`ConversionError`, `ValidationError`), which enclosing types collect. -/
def FieldError (e : Exc) : Prop := ∃ k m, e = .field k m

/-- Every failing conversion is a field error. -/
def Total (l : Leaf) : Prop := ∀ app v e, l.toNative app v = .error e → FieldError e

theorem fe_conv (m : Msg) {α : Type} {e : Exc} (h : (convErr m : R α) = .error e) : FieldError e := by cases h; exact ⟨_, _, rfl⟩
theorem fe_valid (m : Msg) {α : Type} {e : Exc} (h : (validErr m : R α) = .error e) : FieldError e := by cases h; exact ⟨_, _, rfl⟩

theorem stringNative_total (v : Val) (e : Exc) (h : stringNative v = .error e) : FieldError e := by
  cases v with
  | str s => cases h
  | int i => cases h
  | bytes bs =>
    simp only [stringNative] at h
    cases hd : utf8Decode bs.length bs with
    | some cs => rw [hd] at h; cases h
    | none => rw [hd] at h; exact fe_conv _ h
  | _ => exact fe_conv _ h

/-- **C67 for texts**: `StringType` and everything built on it (network addresses, hashes). -/
theorem C67_text_types (re : Option (String → Bool)) (max min : Option Nat) (len : Nat) :
    Total (stringType re max min) ∧ Total (hashType len re max min) ∧ Total (ipv4Type re max min) ∧ Total (ipv6Type re max min) ∧
      Total (ipType re max min) ∧ Total (macType re max min) := by
  refine ⟨fun _ => stringNative_total, ?_, fun _ => stringNative_total, fun _ => stringNative_total, fun _ => stringNative_total,
    fun _ => stringNative_total⟩
  intro app v e h
  change hashNative len v = .error e at h
  unfold hashNative at h
  cases hs : stringNative v with
  | error e' => rw [hs] at h; cases h; exact stringNative_total v e hs
  | ok w =>
    rw [hs] at h
    cases w with
    | str s =>
      simp only at h
      split at h
      · exact fe_valid _ h
      · split at h
        · exact fe_conv _ h
        · cases h
    | _ => cases h

/-- **C67 for `BooleanType`, `DecimalType`, `DateType`, `GeoPointType`, `MultilingualStringType` and `EnumType`.** -/
theorem C67_other_types (str : Val → String) (lo hi : Option Val) (formats : List (List Char → Option Date)) (dflt : Val)
    (re locRe : Option (String → Bool)) (max min : Option Nat) (E : EnumDef) (useValues : Bool) :
    Total booleanType ∧ Total (decimalType str lo hi) ∧ Total (dateType formats) ∧ Total geoType ∧ Total (multiType dflt re max min locRe) ∧
      Total (enumType str E useValues) := by
  refine ⟨?_, ?_, ?_, ?_, ?_, ?_⟩
  · intro app v e h
    change booleanNative v = .error e at h
    cases v with
    | str s =>
      simp only [booleanNative] at h
      split at h
      · cases h
      · split at h
        · cases h
        · exact fe_conv _ h
    | int i =>
      simp only [booleanNative] at h
      split at h
      · cases h
      · split at h
        · cases h
        · exact fe_conv _ h
    | bool b => cases h
    | _ => exact fe_conv _ h
  · intro app v e h
    change decimalNative str v = .error e at h
    have hot : ∀ cs, decimalOfText cs = .error e → FieldError e := by
      intro cs hh
      unfold decimalOfText at hh
      cases hp : parseDec cs with
      | none => rw [hp] at hh; exact fe_conv _ hh
      | some d => rw [hp] at hh; cases hh
    cases v with
    | decimal d => cases h
    | bool b => cases h
    | _ => exact hot _ h
  · intro app v e h
    change dateNative formats v = .error e at h
    cases v with
    | str s =>
      simp only [dateNative] at h
      cases hf : firstSome (dateFormats formats) s.toList with
      | some d => rw [hf] at h; cases h
      | none => rw [hf] at h; exact fe_conv _ h
    | date d => cases h
    | datetime t => cases h
    | _ => exact fe_conv _ h
  · intro app v e h
    change geoNative v = .error e at h
    unfold geoNative at h
    split at h
    · exact fe_conv _ h
    · split at h
      · exact fe_conv _ h
      · split at h
        · exact fe_conv _ h
        · cases h
  · intro app v e h
    change multiNative v = .error e at h
    cases v with
    | none => cases h
    | dict d => cases h
    | _ => exact fe_conv _ h
  · intro app v e h
    rcases C64_only_members str E useValues app v with ⟨w, hw, -⟩ | ⟨hw, -⟩
    · rw [hw] at h; cases h
    · rw [hw] at h; exact fe_conv _ h

/-- **C67 for unions** of such types. -/
theorem C67_union (ms : List Member) (resolver : Option (Val → Option String)) (hr : resolver = none) (h : ∀ m ∈ unionMembers ms, Total m.leaf) :
    Total (unionType ms resolver) := by
  subst hr
  intro app v e he
  change unionNative (unionResolve none (unionMembers ms) app v) = .error e at he
  unfold unionResolve at he
  cases hf : unionFirst app v (unionMembers ms) with
  | error e' =>
    rw [hf] at he
    cases he
    generalize unionMembers ms = l at h hf
    induction l with
    | nil => cases hf
    | cons a l ih =>
      rw [unionFirst] at hf
      cases ha : a.leaf.toNative app v with
      | ok w => rw [ha] at hf; cases hf
      | error e' =>
        obtain ⟨k, m, rfl⟩ := h a (by simp) app v e' ha
        rw [ha] at hf
        cases k with
        | conv => exact ih (fun m hm => h m (by simp [hm])) hf
        | valid => cases hf; exact ⟨_, _, rfl⟩
        | stop => cases hf; exact ⟨_, _, rfl⟩
  | ok o =>
    rw [hf] at he
    cases o with
    | none => cases he; exact ⟨_, _, rfl⟩
    | some r => cases he

/-! ## Types from which other exceptions escape -/

/-- An infinite number. -/
def IsInfinite (v : Val) : Prop := (∃ b, v = .flt (.inf b)) ∨ ∃ b, v = .decimal (.inf b)

/-- **C67 for `IntType`**: exactly the infinities escape (`OverflowError`). -/
theorem C67_int (lo hi : Option Val) (strict : Bool) (app v : Val) :
    (∃ e, (intType lo hi strict).toNative app v = .error e ∧ ¬ FieldError e) ↔ IsInfinite v := by
  constructor
  · rintro ⟨e, h, hn⟩
    rcases C44_int_refusal lo hi strict app v e h with ⟨m, rfl⟩ | ⟨h, -⟩
    · exact absurd ⟨_, _, rfl⟩ hn
    · exact h
  · rintro (⟨b, rfl⟩ | ⟨b, rfl⟩)
    · exact ⟨.other "OverflowError", rfl, by rintro ⟨k, m, h⟩; cases h⟩
    · exact ⟨.other "OverflowError", rfl, by rintro ⟨k, m, h⟩; cases h⟩

/-- An int too large for a float. -/
def TooLarge (v : Val) : Prop := ∃ i b, v = .int i ∧ ofRat i = .inf b

theorem floatOfInt_overflow (i : Int) : floatOfInt i = .overflow ↔ ∃ b, ofRat i = .inf b := by
  unfold floatOfInt
  cases h : ofRat i with
  | inf b => simp
  | fin n k => simp
  | nan => simp

theorem small_finite (b c : Bool) : ofRat ((if b then 1 else 0 : Int) : ℚ) ≠ .inf c := by
  cases b <;> cases c <;> decide +kernel

theorem callFloat_overflow (v : Val) : callFloat v = .overflow ↔ TooLarge v := by
  have hno : ∀ {α : Type} (f : α → Val) (o : Option α), Call.ofOpt f o ≠ .overflow := by
    intro α f o; cases o <;> simp [Call.ofOpt]
  have out : (∀ i, v ≠ .int i) → callFloat v ≠ .overflow → (callFloat v = .overflow ↔ TooLarge v) := by
    intro h1 h2
    constructor
    · intro h; exact absurd h h2
    · rintro ⟨i, b, h, -⟩; exact absurd h (h1 i)
  cases v with
  | int i =>
    rw [show callFloat (.int i) = floatOfInt i from rfl, floatOfInt_overflow]
    unfold TooLarge
    constructor
    · rintro ⟨b, h⟩; exact ⟨i, b, rfl, h⟩
    · rintro ⟨j, b, h, h'⟩; cases h; exact ⟨b, h'⟩
  | bool b =>
    apply out (by simp)
    rw [show callFloat (.bool b) = floatOfInt (if b then 1 else 0) from rfl]
    rw [Ne, floatOfInt_overflow]
    rintro ⟨c, h⟩
    exact small_finite b c h
  | flt f => exact out (by simp) (by simp [callFloat])
  | str s => exact out (by simp) (hno _ _)
  | bytes s => exact out (by simp) (hno _ _)
  | decimal d =>
    apply out (by simp)
    cases d with
    | inf b => simp [callFloat]
    | nan b => simp [callFloat]
    | fin n c e => exact hno _ _
  | _ => exact out (by simp) (by simp [callFloat, Val.toRat?, Call.ofOpt])

/-- **C67 for `FloatType`**: exactly the ints beyond the range of a float escape (`OverflowError`). -/
theorem C67_float (lo hi : Option Val) (strict : Bool) (app v : Val) :
    (∃ e, (floatType lo hi strict).toNative app v = .error e ∧ ¬ FieldError e) ↔ TooLarge v := by
  show (∃ e, numberNative .float strict v = .error e ∧ _) ↔ _
  have hub : TooLarge (unBool v) ↔ TooLarge v := by
    cases v with
    | bool b =>
      constructor
      · intro h
        obtain ⟨i, c, hi, hc⟩ := h
        have hi' : (if b then 1 else 0 : Int) = i := by cases b <;> cases hi <;> rfl
        rw [← hi'] at hc
        exact (small_finite b c hc).elim
      · rintro ⟨i, b, h, -⟩; cases h
    | _ => exact Iff.rfl
  rw [← hub, ← callFloat_overflow]
  unfold numberNative
  constructor
  · rintro ⟨e, h, hn⟩
    split at h
    · cases h
    · cases hc : NumTy.float.call (unBool v) with
      | val w => rw [hc] at h; cases h
      | bad => rw [hc] at h; exact absurd (fe_conv _ h) hn
      | overflow => exact hc
  · intro h
    have hnat : NumTy.isNative .float (unBool v) = false := by
      obtain ⟨i, b, hi, -⟩ := (callFloat_overflow _).1 h
      rw [hi]; rfl
    rw [hnat]
    have hc : NumTy.float.call (unBool v) = .overflow := h
    refine ⟨.other "OverflowError", by rw [hc]; rfl, by rintro ⟨k, m, h⟩; cases h⟩

/-- `10 ** 400` is such an int. -/
theorem tooLarge_example : TooLarge (.int (10 ^ 400)) := ⟨10 ^ 400, false, rfl, by decide +kernel⟩

/-- **C67 for `UUIDType`**: values that are neither text, bytes, UUID, date nor `None` escape (`AttributeError`). -/
theorem C67_uuid (str : Val → String) (app v : Val) :
    (∃ e, (uuidType str).toNative app v = .error e ∧ ¬ FieldError e) ↔
      ¬ ((∃ n, v = .uuid n) ∨ (∃ s, v = .str s) ∨ v = .none ∨ (∃ bs, v = .bytes bs) ∨ (∃ d, v = .date d) ∨ ∃ t, v = .datetime t) := by
  show (∃ e, uuidNative v = .error e ∧ _) ↔ _
  have hne : ¬ FieldError (.other "AttributeError") := by rintro ⟨k, m, h⟩; cases h
  cases v with
  | uuid n =>
    simp only [uuidNative]
    split
    · simp
    · simp [convErr, FieldError]
  | str s =>
    simp only [uuidNative]
    split
    · simp
    · simp [convErr, FieldError]
  | none => simp [uuidNative, convErr, FieldError]
  | bytes bs => simp [uuidNative, convErr, FieldError]
  | date d => simp [uuidNative, convErr, FieldError]
  | datetime t => simp [uuidNative, convErr, FieldError]
  | _ => simp [uuidNative, hne]

/-- **C67 for `TimedeltaType`**: it escapes (`OverflowError`) iff the value is too large for a float, or denotes an infinite number of units or
more than 999999999 days. -/
theorem C67_timedelta (u : Unit') (app v : Val) :
    (∃ e, (timedeltaType u).toNative app v = .error e ∧ ¬ FieldError e) ↔
      (∀ us, v ≠ .timedelta us) ∧ (TooLarge v ∨ ∃ f, callFloat v = .val (.flt f) ∧ deltaOfFloat u.us f = .overflow) := by
  show (∃ e, tdNative u v = .error e ∧ _) ↔ _
  by_cases ht : ∃ us, v = .timedelta us
  · obtain ⟨us, rfl⟩ := ht
    constructor
    · rintro ⟨e, h, -⟩; cases h
    · rintro ⟨h, -⟩; exact absurd rfl (h us)
  · have ht' : ∀ us, v ≠ .timedelta us := fun us h => ht ⟨us, h⟩
    have e1 : tdNative u v = match callFloat v with
        | .val (.flt f) =>
          match deltaOfFloat u.us f with
          | .val us => .ok (.timedelta us)
          | .bad => convErr "convert"
          | .overflow => .error (.other "OverflowError")
        | .overflow => .error (.other "OverflowError")
        | _ => convErr "convert" := by
      cases v with
      | timedelta us => exact absurd rfl (ht' us)
      | _ => rfl
    rw [e1, ← callFloat_overflow]
    have hne : ¬ FieldError (.other "OverflowError") := by rintro ⟨k, m, h⟩; cases h
    constructor
    · rintro ⟨e, h, hn⟩
      refine ⟨ht', ?_⟩
      cases hc : callFloat v with
      | overflow => exact Or.inl rfl
      | bad => rw [hc] at h; exact absurd (fe_conv _ h) hn
      | val w =>
        right
        cases w with
        | flt f =>
          rw [hc] at h
          simp only at h
          refine ⟨f, rfl, ?_⟩
          cases hd : deltaOfFloat u.us f with
          | overflow => rfl
          | bad => rw [hd] at h; exact absurd (fe_conv _ h) hn
          | val us => rw [hd] at h; cases h
        | _ => rw [hc] at h; exact absurd (fe_conv _ h) hn
    · rintro ⟨-, h | ⟨f, h1, h2⟩⟩
      · exact ⟨_, by rw [h], hne⟩
      · refine ⟨.other "OverflowError", ?_, hne⟩
        simp only [h1, h2]

/-- A datetime that cannot be expressed in UTC: its offset is a day or more, or the UTC time lies outside the calendar. -/
def NoUTC (t : DateTime) : Prop := ∃ o, t.tz = some o ∧ (86400 ≤ o.natAbs ∨ ofUs t.instant (some 0) = none)

theorem not_fe (s : String) : ¬ FieldError (.other s) := by rintro ⟨k, m, h⟩; cases h

theorem toUTC_error (t : DateTime) : (∃ e, toUTC t = .error e ∧ ¬ FieldError e) ↔ NoUTC t := by
  unfold toUTC NoUTC
  cases t.tz with
  | none => simp
  | some o =>
    by_cases ho : o.natAbs < 86400
    · cases hu : ofUs t.instant (some 0) with
      | some u => simp only [ho, if_true, hu, Option.some.injEq]; constructor
                  · rintro ⟨e, h, -⟩; cases h
                  · rintro ⟨o', rfl, h⟩; rcases h with h | h
                    · omega
                    · cases h
      | none => simp only [ho, if_true, Option.some.injEq]; exact ⟨fun _ => ⟨o, rfl, Or.inr trivial⟩, fun _ => ⟨_, rfl, not_fe _⟩⟩
    · simp only [ho, if_false, Option.some.injEq]
      exact ⟨fun _ => ⟨o, rfl, Or.inl (by omega)⟩, fun _ => ⟨_, rfl, not_fe _⟩⟩

theorem toUTC_error' (t : DateTime) (e : Exc) (h : toUTC t = .error e) : ¬ FieldError e := by
  unfold toUTC at h
  split at h
  · cases h
  · split at h
    · split at h
      · cases h
      · cases h; exact not_fe _
    · cases h; exact not_fe _

theorem zoned_error (c : DTCfg) (t : DateTime) :
    (∃ e, zoned c t = .error e ∧ ¬ FieldError e) ↔ c.tzd ≠ .reject ∧ c.convert = true ∧ NoUTC t := by
  unfold zoned
  by_cases hr : c.tzd = .reject
  · simp only [hr, if_true, ne_eq, not_true, false_and, iff_false]
    rintro ⟨e, h, hn⟩; exact hn (fe_conv _ h)
  · simp only [hr, if_false, ne_eq, not_false_eq_true, true_and]
    cases hc : c.convert with
    | false => simp [convTz]
    | true =>
      simp only [convTz, if_true, true_and, ← toUTC_error]
      cases toUTC t with
      | ok u => simp
      | error e => simp

theorem convObject_error (c : DTCfg) (t : DateTime) :
    (∃ e, convObject c t = .error e ∧ ¬ FieldError e) ↔ c.tzd ≠ .reject ∧ c.convert = true ∧ NoUTC t := by
  unfold convObject
  cases ht : t.tz with
  | none =>
    have hn : ¬ NoUTC t := by rintro ⟨o, h, -⟩; rw [ht] at h; cases h
    simp only [Option.isNone_none, if_true, hn, and_false, iff_false]
    rintro ⟨e, h, hf⟩
    unfold naiveObject at h
    split at h
    · cases h
    · split at h
      · exact hf (fe_conv _ h)
      · split at h <;> cases h
  | some o => simp only [Option.isNone_some, Bool.false_eq_true, if_false]; exact zoned_error c t

theorem convParsed_error (c : DTCfg) (t : DateTime) :
    (∃ e, convParsed c t = .error e ∧ ¬ FieldError e) ↔ c.tzd ≠ .reject ∧ c.convert = true ∧ NoUTC t := by
  unfold convParsed
  cases ht : t.tz with
  | none =>
    have hn : ¬ NoUTC t := by rintro ⟨o, h, -⟩; rw [ht] at h; cases h
    simp only [Option.isNone_none, if_true, hn, and_false, iff_false]
    rintro ⟨e, h, hf⟩
    unfold naiveParsed at h
    split at h
    · exact hf (fe_conv _ h)
    · split at h <;> cases h
  | some o => simp only [Option.isNone_some, Bool.false_eq_true, if_false]; exact zoned_error c t

theorem toVal_error (r : R DateTime) (e : Exc) : toVal r = .error e ↔ r = .error e := by
  cases r <;> simp [toVal]

/-- The built-in parser fails with something that is no `ConversionError`: a number too large for a float, a timestamp outside the calendar (or
infinite), or bytes that are no float literal. -/
def ParserEscapes (v : Val) : Prop :=
  TooLarge v ∨ (∃ f, callFloat v = .val (.flt f) ∧ fromTimestamp f = .overflow) ∨ ((∃ bs, v = .bytes bs) ∧ ∀ f, callFloat v ≠ .val (.flt f))

theorem builtinParse_error (v : Val) : (∃ e, builtinParse v = .error e ∧ ¬ FieldError e) ↔ ParserEscapes v := by
  unfold ParserEscapes
  rw [← callFloat_overflow]
  have rest : (∀ f, callFloat v ≠ .val (.flt f)) → callFloat v ≠ .overflow →
      ((∃ e, builtinParse v = .error e ∧ ¬ FieldError e) ↔ ∃ bs, v = .bytes bs) := by
    intro h1 h2
    constructor
    · rintro ⟨e, h, hn⟩
      unfold builtinParse at h
      split at h
      · rename_i f hf; exact absurd hf (h1 f)
      · rename_i hf; exact absurd hf h2
      · split at h
        · split at h
          · cases h
          · exact absurd (fe_conv _ h) hn
        · exact ⟨_, rfl⟩
        · exact absurd (fe_conv _ h) hn
    · rintro ⟨bs, rfl⟩
      refine ⟨.other "TypeError", ?_, not_fe _⟩
      unfold builtinParse
      split
      · rename_i f hf; exact absurd hf (h1 f)
      · rename_i hf; exact absurd hf h2
      · rfl
  by_cases h1 : ∃ f, callFloat v = .val (.flt f)
  · obtain ⟨f, hf⟩ := h1
    have h3 : ¬ ((∃ bs, v = .bytes bs) ∧ ∀ f, callFloat v ≠ .val (.flt f)) := fun h => h.2 f hf
    simp only [h3, or_false]
    simp only [builtinParse, hf, reduceCtorEq, false_or, Call.val.injEq, Val.flt.injEq, exists_eq_left']
    cases fromTimestamp f with
    | val t => simp [TD.result]
    | bad => simp only [TD.result, reduceCtorEq, iff_false]; rintro ⟨e, h, hn⟩; exact hn (fe_conv _ h)
    | overflow => simp only [TD.result, iff_true]; exact ⟨_, rfl, not_fe _⟩
  · have h1' : ∀ f, callFloat v ≠ .val (.flt f) := fun f h => h1 ⟨f, h⟩
    by_cases h2 : callFloat v = .overflow
    · simp only [h2, true_or, iff_true]
      exact ⟨.other "OverflowError", by simp only [builtinParse, h2], not_fe _⟩
    · rw [rest h1' h2]
      constructor
      · intro h; exact Or.inr (Or.inr ⟨h, h1'⟩)
      · rintro (h | ⟨f, h, -⟩ | ⟨h, -⟩)
        · exact absurd h h2
        · exact absurd h (h1' f)
        · exact h

/-- **C67 for `DateTimeType`**, all options: an exception that is no field error escapes iff the built-in parser fails that way (see `ParserEscapes`), or
the value denotes a zoned datetime that is to be converted to UTC and has no UTC time. -/
theorem C67_datetime (c : DTCfg) (app v : Val) :
    (∃ e, (dateTimeType c).toNative app v = .error e ∧ ¬ FieldError e) ↔
      ((∀ t, v ≠ .datetime t) ∧ c.parse = none ∧ ParserEscapes v) ∨
      (∃ t, (v = .datetime t ∨ (∀ t', v ≠ .datetime t') ∧ dtParse c v = .ok t) ∧ c.tzd ≠ .reject ∧ c.convert = true ∧ NoUTC t) := by
  show (∃ e, dtNative c v = .error e ∧ _) ↔ _
  by_cases hd : ∃ t, v = .datetime t
  · obtain ⟨t, rfl⟩ := hd
    simp only [dtNative, toVal_error, convObject_error]
    constructor
    · intro h; exact Or.inr ⟨t, Or.inl rfl, h⟩
    · rintro (⟨h, -⟩ | ⟨t', h | ⟨h, -⟩, h'⟩)
      · exact absurd rfl (h t)
      · cases h; exact h'
      · exact absurd rfl (h t)
  · have hd' : ∀ t, v ≠ .datetime t := fun t h => hd ⟨t, h⟩
    have e1 : dtNative c v = match dtParse c v with | .ok t => toVal (convParsed c t) | .error e => .error e := by
      cases v with
      | datetime t => exact absurd rfl (hd' t)
      | _ => rfl
    have e2 : (∃ e, dtParse c v = .error e ∧ ¬ FieldError e) ↔ c.parse = none ∧ ParserEscapes v := by
      unfold dtParse
      cases hp : c.parse with
      | none => simp only [true_and]; exact builtinParse_error v
      | some f =>
        simp only [reduceCtorEq, false_and, iff_false]
        rintro ⟨e, h, hn⟩
        cases hf : f v with
        | some t => rw [hf] at h; cases h
        | none => rw [hf] at h; exact hn (fe_conv _ h)
    rw [e1, ← e2]
    cases hp : dtParse c v with
    | error e =>
      simp only [reduceCtorEq, and_false, or_false]
      constructor
      · rintro ⟨e', h, hn⟩; cases h; exact Or.inl ⟨hd', e, rfl, hn⟩
      · rintro (⟨-, e', h, hn⟩ | ⟨t, h, -⟩)
        · cases h; exact ⟨e, rfl, hn⟩
        · exact absurd h (hd' t)
    | ok t =>
      simp only [toVal_error, convParsed_error, reduceCtorEq, false_and, exists_false, and_false, false_or]
      constructor
      · intro h; exact ⟨t, Or.inr ⟨hd', rfl⟩, h⟩
      · rintro ⟨t', h | ⟨-, h⟩, h'⟩
        · exact absurd h (hd' t')
        · cases h; exact h'

/-- **C67 for `DateTimeType`, corollary**: without `convert_tz`, a text that is no float literal, a date or anything that is neither number nor
text or bytes never escapes. -/
theorem C67_datetime_text (c : DTCfg) (hc : c.convert = false) (app v : Val) (hv : callFloat v = .bad) (hb : ∀ bs, v ≠ .bytes bs) (e : Exc)
    (h : (dateTimeType c).toNative app v = .error e) : FieldError e := by
  by_contra hn
  rcases (C67_datetime c app v).1 ⟨e, h, hn⟩ with ⟨-, -, h1 | ⟨f, h1, -⟩ | ⟨⟨bs, h1⟩, -⟩⟩ | ⟨t, -, -, h1, -⟩
  · rw [← callFloat_overflow, hv] at h1; cases h1
  · rw [hv] at h1; cases h1
  · exact hb bs h1
  · rw [hc] at h1; cases h1

/-- Whether a timestamp overflowed. -/
def isOver : TD α → Bool
  | .overflow => true
  | _ => false

/-- **C67, what fails for `DateTimeType`**: infinite and huge timestamps, bytes, and offsets of more than a day when converting to UTC. -/
theorem C67_counterexample_datetime (app : Val) :
    (dateTimeType {}).toNative app (.str "inf") = .error (.other "OverflowError") ∧
    (dateTimeType {}).toNative app (.flt (.fin (10 ^ 20) 0)) = .error (.other "OverflowError") ∧
    (dateTimeType {}).toNative app (.bytes [120]) = .error (.other "TypeError") ∧
    (dateTimeType { convert := true }).toNative app (.str "2020-01-01T00:00+99:99") = .error (.other "ValueError") ∧
    (dateTimeType { convert := true }).toNative app (.str "0001-01-01T00:00+01:00") = .error (.other "OverflowError") := by
  have e : ∀ c v, (dateTimeType c).toNative app v = dtNative c v := fun _ _ => rfl
  simp only [e]
  have ht : fromTimestamp (.fin (10 ^ 20) 0) = .overflow := by
    have : isOver (fromTimestamp (.fin (10 ^ 20) 0)) = true := by decide +kernel
    revert this
    cases fromTimestamp (.fin (10 ^ 20) 0) <;> simp [isOver]
  refine ⟨by rfl, ?_, by rfl, by rfl, by rfl⟩
  have e2 : dtNative {} (.flt (.fin (10 ^ 20) 0)) =
      match (fromTimestamp (.fin (10 ^ 20) 0)).result with
      | .ok t => toVal (convParsed {} t)
      | .error e => .error e := rfl
  rw [e2, ht]; rfl

/-- **C67, what fails**: witnesses for the other types. -/
theorem C67_counterexample (str : Val → String) (app : Val) :
    (intType).toNative app (.flt (.inf true)) = .error (.other "OverflowError") ∧
    (∃ e, (floatType).toNative app (.int (10 ^ 400)) = .error e ∧ ¬ FieldError e) ∧
    (uuidType str).toNative app (.int 5) = .error (.other "AttributeError") ∧
    (timedeltaType .days).toNative app (.flt (.inf false)) = .error (.other "OverflowError") :=
  ⟨rfl, (C67_float none none false app _).2 tooLarge_example, rfl, rfl⟩

/-- A union inherits the escapes of its members: `UnionType([UUIDType(), IntType()])` cannot take an int. -/
theorem C67_counterexample_union (str : Val → String) (app : Val) :
    (unionType [{ cls := "UUIDType", leaf := uuidType str }, mInt]).toNative app (.int 5) = .error (.other "AttributeError") := rfl

/-! ## The hypotheses are met -/

example : ∀ m ∈ unionMembers [mBool, mStr 3], Total m.leaf := by
  intro m hm
  change m ∈ [mBool, mStr 3] at hm
  simp only [List.mem_cons, List.not_mem_nil, or_false] at hm
  rcases hm with rfl | rfl
  · exact (C67_other_types (fun _ => "") none none [] .none none none none none colour false).1
  · exact (C67_text_types none (some 3) none 0).1
example : callFloat (.str "2020-01-01T00:00") = .bad ∧ callFloat (.str "next week") = .bad := by constructor <;> rfl

end Verif.Types
