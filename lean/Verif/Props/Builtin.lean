import Verif.Props.Total
import Verif.Props.RoundTrip
import Verif.Props.Termination
import Verif.Props.ExportDeep
import Verif.Props.Decimal
import Verif.Props.Text
import Verif.Props.DateTime

/-!
# The built-in scalar types meet the hypotheses of the theorems about imports and exports
-/
namespace Verif.Types
open Verif.Py

/-- The built-in scalar types, with any options. -/
inductive Scalar : Leaf → Prop
  | int (lo hi strict) : Scalar (intType lo hi strict)
  | float (lo hi strict) : Scalar (floatType lo hi strict)
  | decimal (str lo hi) : Scalar (decimalType str lo hi)
  | string (re max min) : Scalar (stringType re max min)
  | hash (len re max min) : Scalar (hashType len re max min)
  | pattern (msg r re max min) : Scalar (patternType msg r re max min)
  | mac (re max min) : Scalar (macType re max min)
  | boolean : Scalar booleanType
  | uuid (str) : Scalar (uuidType str)
  | date (formats) : Scalar (dateType formats)
  | datetime (c) : Scalar (dateTimeType c)
  | utc : Scalar utcDateTimeType
  | timestamp (drop) : Scalar (timestampType drop)
  | timedelta (u) : Scalar (timedeltaType u)
  | geo : Scalar geoType
  | multi (dflt re max min locRe) : Scalar (multiType dflt re max min locRe)
  | enum (str E useValues) : Scalar (enumType str E useValues)

/-- The built-in types including unions of built-in types. -/
inductive BuiltIn : Leaf → Prop
  | scalar {l} : Scalar l → BuiltIn l
  | union {ms} (resolver) : (∀ m ∈ ms, BuiltIn m.leaf) → BuiltIn (unionType ms resolver)

/-! ## What the conversions produce -/

theorem callInt_val {v w : Val} (h : callInt v = .val w) : ∃ i, w = .int i := by
  have hof : ∀ {α : Type} (f : α → Val) (o : Option α), (∀ a, ∃ i, f a = .int i) → Call.ofOpt f o = .val w → ∃ i, w = .int i := by
    intro α f o hf ho
    cases o with
    | none => cases ho
    | some a => cases ho; exact hf a
  cases v with
  | str s => exact hof _ _ (fun a => ⟨a, rfl⟩) h
  | bytes s => exact hof _ _ (fun a => ⟨a, rfl⟩) h
  | uuid n => cases h; exact ⟨_, rfl⟩
  | flt f =>
    cases f with
    | inf b => cases h
    | nan => cases h
    | fin n k => cases h; exact ⟨_, rfl⟩
  | decimal f =>
    cases f with
    | inf b => cases h
    | nan b => cases h
    | fin n c e => exact hof (fun q : Rat => Val.int (trunc q)) (Val.decimal (.fin n c e)).toRat? (fun a => ⟨_, rfl⟩) h
  | int i => cases h; exact ⟨_, rfl⟩
  | bool i => cases h; exact ⟨_, rfl⟩
  | _ => cases h

theorem callFloat_val {v w : Val} (h : callFloat v = .val w) : ∃ i, w = .flt i := by
  have hof : ∀ {α : Type} (f : α → Val) (o : Option α), (∀ a, ∃ i, f a = .flt i) → Call.ofOpt f o = .val w → ∃ i, w = .flt i := by
    intro α f o hf ho
    cases o with
    | none => cases ho
    | some a => cases ho; exact hf a
  have hi : ∀ i, floatOfInt i = .val w → ∃ i, w = .flt i := by
    intro i hi
    unfold floatOfInt at hi
    cases hr : ofRat i with
    | inf b => rw [hr] at hi; cases hi
    | fin n k => rw [hr] at hi; cases hi; exact ⟨_, rfl⟩
    | nan => rw [hr] at hi; cases hi; exact ⟨_, rfl⟩
  cases v with
  | str s => exact hof _ _ (fun a => ⟨a, rfl⟩) h
  | bytes s => exact hof _ _ (fun a => ⟨a, rfl⟩) h
  | int i => exact hi _ h
  | bool b => exact hi _ h
  | flt f => cases h; exact ⟨_, rfl⟩
  | decimal f =>
    cases f with
    | inf b => cases h; exact ⟨_, rfl⟩
    | nan b => cases h; exact ⟨_, rfl⟩
    | fin n c e => exact hof (fun q : Rat => Val.flt (ofRat q)) (Val.decimal (.fin n c e)).toRat? (fun a => ⟨_, rfl⟩) h
  | _ => cases h

theorem intNative_val {strict : Bool} {v w : Val} (h : numberNative .int strict v = .ok w) : ∃ i, w = .int i := by
  unfold numberNative at h
  cases hn : NumTy.isNative .int (unBool v) with
  | true =>
    rw [hn] at h
    cases h
    cases v with
    | int i => exact ⟨_, rfl⟩
    | bool b => exact ⟨_, rfl⟩
    | _ => cases hn
  | false =>
    rw [hn] at h
    simp only [Bool.false_eq_true, if_false] at h
    cases hc : NumTy.int.call (unBool v) with
    | overflow => rw [hc] at h; cases h
    | bad => rw [hc] at h; cases h
    | val x =>
      rw [hc] at h
      simp only [accept, reduceCtorEq, if_false] at h
      have : x = w := by
        split at h
        · cases h; rfl
        · split at h
          · cases h; rfl
          · cases h
      subst this
      exact callInt_val hc

theorem floatNative_val {strict : Bool} {v w : Val} (h : numberNative .float strict v = .ok w) : ∃ i, w = .flt i := by
  unfold numberNative at h
  cases hn : NumTy.isNative .float (unBool v) with
  | true =>
    rw [hn] at h
    cases h
    cases v with
    | flt i => exact ⟨_, rfl⟩
    | bool b => cases hn
    | _ => cases hn
  | false =>
    rw [hn] at h
    simp only [Bool.false_eq_true, if_false] at h
    cases hc : NumTy.float.call (unBool v) with
    | overflow => rw [hc] at h; cases h
    | bad => rw [hc] at h; cases h
    | val x =>
      rw [hc] at h
      simp only [accept, if_true] at h
      cases h
      exact callFloat_val hc

theorem decimalNative_val {str : Val → String} {v w : Val} (h : decimalNative str v = .ok w) : ∃ d, w = .decimal d := by
  have hot : ∀ cs, decimalOfText cs = .ok w → ∃ d, w = .decimal d := by
    intro cs hh
    unfold decimalOfText at hh
    cases hp : parseDec cs with
    | none => rw [hp] at hh; cases hh
    | some d => rw [hp] at hh; cases hh; exact ⟨_, rfl⟩
  cases v with
  | decimal d => cases h; exact ⟨_, rfl⟩
  | bool b => cases h; exact ⟨_, rfl⟩
  | _ => exact hot _ h

theorem stringNative_val {v w : Val} (h : stringNative v = .ok w) : ∃ s, w = .str s := by
  cases v with
  | str s => cases h; exact ⟨_, rfl⟩
  | int s => cases h; exact ⟨_, rfl⟩
  | bytes bs =>
    simp only [stringNative] at h
    cases hd : utf8Decode bs.length bs with
    | some cs => rw [hd] at h; cases h; exact ⟨_, rfl⟩
    | none => rw [hd] at h; cases h
  | _ => cases h

/-- An accepted hash is accepted as it is. -/
theorem hashNative_val {len : Nat} {v w : Val} (h : hashNative len v = .ok w) : ∃ s, w = .str s ∧ hashNative len (.str s) = .ok (.str s) := by
  unfold hashNative at h
  cases hs : stringNative v with
  | error e => rw [hs] at h; cases h
  | ok x =>
    obtain ⟨s, rfl⟩ := stringNative_val hs
    rw [hs] at h
    simp only at h
    have hw : w = .str s := by
      split at h
      · cases h
      · split at h
        · cases h
        · cases h; rfl
    subst hw
    exact ⟨s, rfl, h⟩

theorem booleanNative_val {v w : Val} (h : booleanNative v = .ok w) : ∃ b, w = .bool b := by
  cases v with
  | str s =>
    simp only [booleanNative] at h
    split at h
    · cases h; exact ⟨_, rfl⟩
    · split at h
      · cases h; exact ⟨_, rfl⟩
      · cases h
  | int i =>
    simp only [booleanNative] at h
    split at h
    · cases h; exact ⟨_, rfl⟩
    · split at h
      · cases h; exact ⟨_, rfl⟩
      · cases h
  | bool b => cases h; exact ⟨_, rfl⟩
  | _ => cases h

theorem uuidNative_val {v w : Val} (h : uuidNative v = .ok w) : ∃ n, w = .uuid n := by
  cases v with
  | uuid n =>
    simp only [uuidNative] at h
    split at h
    · cases h; exact ⟨_, rfl⟩
    · cases h
  | str s =>
    simp only [uuidNative] at h
    cases hp : parseUuid s.toList with
    | none => rw [hp] at h; cases h
    | some n => rw [hp] at h; cases h; exact ⟨_, rfl⟩
  | _ => cases h

theorem dateNative_val {fs : List (List Char → Option Date)} {v w : Val} (h : dateNative fs v = .ok w) : ∃ d, w = .date d := by
  cases v with
  | date d => cases h; exact ⟨_, rfl⟩
  | datetime d => cases h; exact ⟨_, rfl⟩
  | str s =>
    simp only [dateNative] at h
    cases hp : firstSome (dateFormats fs) s.toList with
    | none => rw [hp] at h; cases h
    | some n => rw [hp] at h; cases h; exact ⟨_, rfl⟩
  | _ => cases h

theorem toVal_val {r : R DateTime} {w : Val} (h : toVal r = .ok w) : ∃ t, w = .datetime t := by
  cases r with
  | ok t => cases h; exact ⟨_, rfl⟩
  | error e => cases h

theorem dtNative_val {c : DTCfg} {v w : Val} (h : dtNative c v = .ok w) : ∃ t, w = .datetime t := by
  unfold dtNative at h
  split at h
  · exact toVal_val h
  · split at h
    · exact toVal_val h
    · cases h

theorem tdNative_val {u : Unit'} {v w : Val} (h : tdNative u v = .ok w) : ∃ t, w = .timedelta t := by
  unfold tdNative at h
  split at h
  · cases h; exact ⟨_, rfl⟩
  · split at h
    · split at h
      · cases h; exact ⟨_, rfl⟩
      · cases h
      · cases h
    · cases h
    · cases h

theorem geoNative_val {v w : Val} (h : geoNative v = .ok w) : w = v ∧ geoElements v ≠ none := by
  unfold geoNative at h
  cases hg : geoElements v with
  | none => rw [hg] at h; cases h
  | some xs =>
    rw [hg] at h
    simp only at h
    split at h
    · cases h
    · split at h
      · cases h
      · cases h; exact ⟨rfl, by simp⟩

theorem multiNative_val {v w : Val} (h : multiNative v = .ok w) : w = v ∧ (v = .none ∨ ∃ d, v = .dict d) := by
  cases v with
  | none => cases h; exact ⟨rfl, Or.inl rfl⟩
  | dict d => cases h; exact ⟨rfl, Or.inr ⟨_, rfl⟩⟩
  | _ => cases h

theorem enumNative_val {E : EnumDef} {b : Bool} {v w : Val} (h : enumNative E b v = .ok w) : ∃ n x, w = .enum E.cls n x := by
  unfold enumNative at h
  split at h
  · rename_i hh
    cases h
    cases v with
    | enum c n x =>
      have : c = E.cls := by simpa [EnumDef.has] using hh
      subst this
      exact ⟨_, _, rfl⟩
    | _ => cases hh
  · split at h
    · cases h; exact ⟨_, _, rfl⟩
    · split at h
      · cases h; exact ⟨_, _, rfl⟩
      · cases h

/-! ## Conversions keep and define values -/

theorem scalar_native {l : Leaf} (hl : Scalar l) {app v w : Val} (h : l.toNative app v = .ok w) :
    w ≠ .undef ∧ (w = .none → v = .none) := by
  cases hl with
  | int => obtain ⟨_, rfl⟩ := intNative_val h; simp
  | float => obtain ⟨_, rfl⟩ := floatNative_val h; simp
  | decimal => obtain ⟨_, rfl⟩ := decimalNative_val h; simp
  | string => obtain ⟨_, rfl⟩ := stringNative_val h; simp
  | hash => obtain ⟨_, rfl, _⟩ := hashNative_val h; simp
  | pattern => obtain ⟨_, rfl⟩ := stringNative_val h; simp
  | mac => obtain ⟨_, rfl⟩ := stringNative_val h; simp
  | boolean => obtain ⟨_, rfl⟩ := booleanNative_val h; simp
  | uuid => obtain ⟨_, rfl⟩ := uuidNative_val h; simp
  | date => obtain ⟨_, rfl⟩ := dateNative_val h; simp
  | datetime => obtain ⟨_, rfl⟩ := dtNative_val h; simp
  | utc => obtain ⟨_, rfl⟩ := dtNative_val h; simp
  | timestamp => obtain ⟨_, rfl⟩ := dtNative_val h; simp
  | timedelta => obtain ⟨_, rfl⟩ := tdNative_val h; simp
  | geo =>
    obtain ⟨rfl, hg⟩ := geoNative_val h
    exact ⟨by rintro rfl; exact hg rfl, id⟩
  | multi =>
    obtain ⟨rfl, rfl | ⟨d, rfl⟩⟩ := multiNative_val h <;> simp
  | enum => obtain ⟨_, _, rfl⟩ := enumNative_val h; simp

theorem scalar_override {l : Leaf} (hl : Scalar l) : l.override = none := by cases hl <;> rfl

/-- **C04, C07 for built-in types**: conversions never produce `Undefined`. -/
theorem C04_builtin_types (l : Leaf) (hl : Scalar l) : LeafDefined l :=
  ⟨fun _ _ _ h => (scalar_native hl h).1, fun g hg => by rw [scalar_override hl] at hg; cases hg⟩

theorem Dict.mem_set {K V : Type} [DecidableEq K] {d : Dict K V} {k : K} {v : V} {kv : K × V} (h : kv ∈ Dict.set d k v) : kv = (k, v) ∨ kv ∈ d := by
  induction d with
  | nil => simp only [Dict.set, List.mem_singleton] at h; exact Or.inl h
  | cons x d ih =>
    obtain ⟨a, b⟩ := x
    unfold Dict.set at h
    split at h
    · rcases List.mem_cons.1 h with h | h
      · left; simp_all
      · right; simp [h]
    · rcases List.mem_cons.1 h with h | h
      · right; simp [h]
      · rcases ih h with h | h
        · exact Or.inl h
        · right; simp [h]

theorem mem_unionMembers {ms : List Member} {m : Member} (h : m ∈ unionMembers ms) : m ∈ ms := by
  unfold unionMembers at h
  obtain ⟨kv, hkv, rfl⟩ := List.mem_map.1 h
  have : ∀ (ms : List Member) (d : Dict String Member), kv ∈ ms.foldl (fun (d : Dict String Member) m => d.set m.cls m) d → kv ∈ d ∨ kv.2 ∈ ms := by
    intro ms
    induction ms with
    | nil => intro d h; exact Or.inl h
    | cons m ms ih =>
      intro d h
      rcases ih _ h with h | h
      · rcases Dict.mem_set h with h | h
        · right; rw [h]; simp
        · left; exact h
      · right; simp [h]
  rcases this ms [] hkv with h | h
  · cases h
  · exact h

theorem unionFirst_mem {app v : Val} {ms : List Member} {m : Member} {w : Val} (h : unionFirst app v ms = .ok (some (m, w))) :
    m ∈ ms ∧ m.leaf.toNative app v = .ok w := by
  induction ms with
  | nil => cases h
  | cons x ms ih =>
    unfold unionFirst at h
    split at h
    · rename_i hx; cases h; exact ⟨by simp, hx⟩
    · obtain ⟨h1, h2⟩ := ih h; exact ⟨by simp [h1], h2⟩
    · cases h

theorem unionResolve_mem {res : Option (Val → Option String)} {app v : Val} {ms : List Member} {m : Member} {w : Val}
    (h : unionResolve res ms app v = .ok (m, w)) : m ∈ ms ∧ m.leaf.toNative app v = .ok w := by
  unfold unionResolve at h
  split at h
  · split at h
    · cases h
    · rename_i hf; cases h; exact unionFirst_mem hf
    · cases h
  · split at h
    · cases h
    · split at h
      · cases h
      · rename_i hm
        split at h
        · rename_i hn; cases h; exact ⟨List.mem_of_find?_eq_some hm, hn⟩
        · cases h
        · cases h

/-- **C05 for built-in types**: the conversion (and the validation of a union) never turns a value into `None`, as the theorems about
required fields demand. -/
theorem C05_builtin_types (l : Leaf) (hl : BuiltIn l) : LeafKeeps l := by
  induction hl with
  | scalar hs =>
    refine ⟨fun app v w hv h => ?_, fun g hg => by rw [scalar_override hs] at hg; cases hg⟩
    obtain ⟨h1, h2⟩ := scalar_native hs h
    cases hw : w.isEmpty with
    | false => rfl
    | true =>
      rcases (Val.isEmpty_iff w).1 hw with rfl | rfl
      · rw [h2 rfl] at hv; cases hv
      · exact absurd rfl h1
  | @union ms res _ ih =>
    have hm : ∀ {app v m w}, unionResolve res (unionMembers ms) app v = .ok (m, w) → m ∈ ms ∧ m.leaf.toNative app v = .ok w := by
      intro app v m w h
      obtain ⟨h1, h2⟩ := unionResolve_mem h
      exact ⟨mem_unionMembers h1, h2⟩
    constructor
    · intro app v w hv h
      change unionNative (unionResolve res (unionMembers ms) app v) = .ok w at h
      cases hr : unionResolve res (unionMembers ms) app v with
      | error e => rw [hr] at h; cases h
      | ok mw =>
        obtain ⟨m, x⟩ := mw
        rw [hr] at h
        cases h
        obtain ⟨h1, h2⟩ := hm hr
        exact (ih m h1).1 _ _ _ hv h2
    · intro g hg b app v w hv h
      cases hg
      change unionValidate b app v (unionResolve res (unionMembers ms) app v) = .ok w at h
      cases hr : unionResolve res (unionMembers ms) app v with
      | error e => rw [hr] at h; cases h
      | ok mw =>
        obtain ⟨m, x⟩ := mw
        rw [hr] at h
        obtain ⟨h1, h2⟩ := hm hr
        change memberValidate m b app v = .ok w at h
        unfold memberValidate at h
        split at h
        · rename_i g hg; exact (ih m h1).2 g hg _ _ _ _ hv h
        · split at h
          · split at h
            · cases h
            · rename_i hn
              obtain ⟨rfl, -⟩ := finishValidation_ok h
              exact (ih m h1).1 _ _ _ hv hn
          · obtain ⟨rfl, -⟩ := finishValidation_ok h
            exact hv

/-! ## The recursion limit -/

theorem accept_ends (ty : NumTy) (strict : Bool) (v : Val) (c : Call) : Ends (accept ty strict v c) := by
  cases c with
  | overflow => intro h; cases h
  | bad => exact convErr_ends _
  | val w =>
    unfold accept
    repeat' split
    all_goals intro h; cases h

theorem numberNative_ends (ty : NumTy) (strict : Bool) (v : Val) : Ends (numberNative ty strict v) := by
  unfold numberNative
  split
  · exact ends_ok _
  · exact accept_ends _ _ _ _

theorem decimalOfText_ends (cs : List Char) : Ends (decimalOfText cs) := by
  unfold decimalOfText
  split <;> intro h <;> cases h

theorem decimalNative_ends (str : Val → String) (v : Val) : Ends (decimalNative str v) := by
  cases v with
  | decimal d => exact ends_ok _
  | bool b => exact ends_ok _
  | _ => exact decimalOfText_ends _

theorem of_fieldError {α : Type} {r : R α} (h : ∀ e, r = .error e → FieldError e) : Ends r := by
  intro hr
  obtain ⟨k, m, hk⟩ := h _ hr
  cases hk

theorem uuidNative_ends (v : Val) : Ends (uuidNative v) := by
  unfold uuidNative
  repeat' split
  all_goals intro h; cases h

theorem TD.result_ends {α : Type} (t : TD α) : Ends t.result := by
  cases t <;> intro h <;> cases h

theorem builtinParse_ends (v : Val) : Ends (builtinParse v) := by
  unfold builtinParse
  repeat' split
  all_goals first | exact TD.result_ends _ | (intro h; cases h)

theorem dtParse_ends (c : DTCfg) (v : Val) : Ends (dtParse c v) := by
  unfold dtParse
  repeat' split
  all_goals first | exact builtinParse_ends _ | (intro h; cases h)

theorem toUTC_ends (t : DateTime) : Ends (toUTC t) := by
  unfold toUTC
  repeat' split
  all_goals intro h; cases h

theorem convTz_ends (b : Bool) (t : DateTime) : Ends (convTz b t) := by
  unfold convTz
  split
  · exact toUTC_ends _
  · exact ends_ok _

theorem zoned_ends (c : DTCfg) (t : DateTime) : Ends (zoned c t) := by
  unfold zoned
  split
  · exact convErr_ends _
  · have := convTz_ends c.convert t
    cases hc : convTz c.convert t with
    | ok u => exact ends_ok _
    | error e => rw [hc] at this; intro h; cases h; exact this rfl

theorem convObject_ends (c : DTCfg) (t : DateTime) : Ends (convObject c t) := by
  unfold convObject naiveObject
  repeat' split
  all_goals first | exact zoned_ends _ _ | (intro h; cases h)

theorem convParsed_ends (c : DTCfg) (t : DateTime) : Ends (convParsed c t) := by
  unfold convParsed naiveParsed
  repeat' split
  all_goals first | exact zoned_ends _ _ | (intro h; cases h)

theorem toVal_ends {r : R DateTime} (h : Ends r) : Ends (toVal r) := by
  cases r with
  | ok t => exact ends_ok _
  | error e => intro hh; cases hh; exact h rfl

theorem dtNative_ends (c : DTCfg) (v : Val) : Ends (dtNative c v) := by
  unfold dtNative
  split
  · exact toVal_ends (convObject_ends _ _)
  · have := dtParse_ends c v
    split
    · exact toVal_ends (convParsed_ends _ _)
    · rename_i e he; rw [he] at this; intro h; cases h; exact this rfl

theorem tdNative_ends (u : Unit') (v : Val) : Ends (tdNative u v) := by
  unfold tdNative
  repeat' split
  all_goals intro h; cases h

theorem pyLt_ends (x y : Val) : Ends (pyLt x y) := by
  unfold pyLt
  repeat' split
  all_goals intro h; cases h

theorem bound_ends {m : Msg} {r : R Bool} (h : Ends r) : Ends (bound m r) := by
  unfold bound
  split
  · intro hh; cases hh; exact h rfl
  · intro h; cases h
  · intro h; cases h

theorem validateRange_ends (lo hi : Option Val) (app v : Val) : Ends (validateRange lo hi app v) := by
  have h1 : Ends (minCheck lo v) := by
    unfold minCheck
    split
    · exact bound_ends (pyLt_ends _ _)
    · exact ends_ok _
  have h2 : Ends (maxCheck hi v) := by
    unfold maxCheck
    split
    · exact bound_ends (pyLt_ends _ _)
    · exact ends_ok _
  unfold validateRange
  split
  · rename_i he; rw [he] at h1; intro h; cases h; exact h1 rfl
  · exact h2

theorem validateLength_ends (max min : Option Nat) (app v : Val) : Ends (validateLength max min app v) := by
  unfold validateLength
  repeat' split
  all_goals intro h; cases h

theorem validateRegex_ends (re : Option (String → Bool)) (app v : Val) : Ends (validateRegex re app v) := by
  unfold validateRegex
  repeat' split
  all_goals intro h; cases h

theorem validateRe_ends (m : Msg) (r : Re) (app v : Val) : Ends (validateRe m r app v) := by
  unfold validateRe
  repeat' split
  all_goals intro h; cases h

theorem validateTz_ends (c : DTCfg) (app v : Val) : Ends (validateTz c app v) := by
  unfold validateTz
  repeat' split
  all_goals intro h; cases h

theorem geoTest_ends {m : Msg} {r : R Bool} {next : R Unit} (h : Ends r) (hn : Ends next) : Ends (geoTest m r next) := by
  unfold geoTest
  split
  · intro hh; cases hh; exact h rfl
  · intro h; cases h
  · exact hn

theorem validateGeo_ends (app v : Val) : Ends (validateGeo app v) := by
  unfold validateGeo
  split
  · exact geoTest_ends (pyLt_ends _ _) (geoTest_ends (pyLt_ends _ _) (geoTest_ends (pyLt_ends _ _) (geoTest_ends (pyLt_ends _ _) (ends_ok _))))
  · intro h; cases h

theorem multiLength_ends (max min : Option Nat) (app v : Val) : Ends (multiLength max min app v) := by
  have loop : ∀ d, Ends (multiLengthLoop max min d) := by
    intro d
    induction d with
    | nil => exact ends_ok _
    | cons kv d ih =>
      obtain ⟨k, x⟩ := kv
      unfold multiLengthLoop
      repeat' split
      all_goals first | exact ih | (intro h; cases h)
  unfold multiLength
  split
  · exact loop _
  · intro h; cases h

theorem multiTest_ends {m : Msg} {re : Option (String → Bool)} {v : Val} {next : R Unit} (h : Ends next) : Ends (multiTest m re v next) := by
  unfold multiTest
  repeat' split
  all_goals first | exact h | (intro h; cases h)

theorem multiRegex_ends (re locRe : Option (String → Bool)) (app v : Val) : Ends (multiRegex re locRe app v) := by
  have loop : ∀ d, Ends (multiRegexLoop re locRe d) := by
    intro d
    induction d with
    | nil => exact ends_ok _
    | cons kv d ih => exact multiTest_ends (multiTest_ends ih)
  unfold multiRegex
  split
  · exact ends_ok _
  · exact loop _
  · intro h; cases h

theorem scalar_tame {l : Leaf} (hl : Scalar l) : l.Tame := by
  have ov : ∀ g, l.override = some g → ∀ b app v, Ends (g b app v) := fun g hg => by rw [scalar_override hl] at hg; cases hg
  have v1 : ∀ (a : Validator), (∀ app v, Ends (a app v)) → ∀ g ∈ [a], ∀ app v, Ends (g app v) := by
    intro a ha g hg
    rw [List.mem_singleton] at hg
    subst hg; exact ha
  have v2 : ∀ (a b : Validator), (∀ app v, Ends (a app v)) → (∀ app v, Ends (b app v)) → ∀ g ∈ [a, b], ∀ app v, Ends (g app v) := by
    intro a b ha hb g hg
    rcases List.mem_cons.1 hg with rfl | hg
    · exact ha
    · exact v1 _ hb g hg
  have v3 : ∀ (a b c : Validator), (∀ app v, Ends (a app v)) → (∀ app v, Ends (b app v)) → (∀ app v, Ends (c app v)) →
      ∀ g ∈ [a, b, c], ∀ app v, Ends (g app v) := by
    intro a b c ha hb hc g hg
    rcases List.mem_cons.1 hg with rfl | hg
    · exact ha
    · exact v2 _ _ hb hc g hg
  have v0 : ∀ g ∈ ([] : List Validator), ∀ app v, Ends (g app v) := by simp
  cases hl with
  | int => exact ⟨fun _ _ => numberNative_ends _ _ _, v1 _ (validateRange_ends _ _), ov⟩
  | float => exact ⟨fun _ _ => numberNative_ends _ _ _, v1 _ (validateRange_ends _ _), ov⟩
  | decimal => exact ⟨fun _ _ => decimalNative_ends _ _, v1 _ (validateRange_ends _ _), ov⟩
  | string => exact ⟨fun _ v => of_fieldError (stringNative_total v), v2 _ _ (validateLength_ends _ _) (validateRegex_ends _), ov⟩
  | hash len re max min =>
    exact ⟨fun app v => of_fieldError ((C67_text_types re max min len).2.1 app v), v2 _ _ (validateLength_ends _ _) (validateRegex_ends _), ov⟩
  | pattern => exact ⟨fun _ v => of_fieldError (stringNative_total v),
      v3 _ _ _ (validateLength_ends _ _) (validateRegex_ends _) (validateRe_ends _ _), ov⟩
  | mac => exact ⟨fun _ v => of_fieldError (stringNative_total v),
      v3 _ _ _ (validateLength_ends _ _) (validateRegex_ends _) (validateRe_ends _ _), ov⟩
  | boolean =>
    exact ⟨fun app v => of_fieldError ((C67_other_types (fun _ => "") none none [] .none none none none none ⟨"", [], []⟩ false).1 app v), v0, ov⟩
  | uuid => exact ⟨fun _ v => uuidNative_ends v, v0, ov⟩
  | date fs =>
    exact ⟨fun app v => of_fieldError ((C67_other_types (fun _ => "") none none fs .none none none none none ⟨"", [], []⟩ false).2.2.1 app v), v0, ov⟩
  | datetime => exact ⟨fun _ v => dtNative_ends _ v, v1 _ (validateTz_ends _), ov⟩
  | utc => exact ⟨fun _ v => dtNative_ends _ v, v1 _ (validateTz_ends _), ov⟩
  | timestamp => exact ⟨fun _ v => dtNative_ends _ v, v1 _ (validateTz_ends _), ov⟩
  | timedelta => exact ⟨fun _ v => tdNative_ends _ v, v0, ov⟩
  | geo =>
    exact ⟨fun app v => of_fieldError ((C67_other_types (fun _ => "") none none [] .none none none none none ⟨"", [], []⟩ false).2.2.2.1 app v),
      v1 _ validateGeo_ends, ov⟩
  | multi dflt re max min locRe =>
    exact ⟨fun app v => of_fieldError ((C67_other_types (fun _ => "") none none [] dflt re locRe max min ⟨"", [], []⟩ false).2.2.2.2.1 app v),
      v2 _ _ (multiLength_ends _ _) (multiRegex_ends _ _), ov⟩
  | enum str E u =>
    exact ⟨fun app v => of_fieldError ((C67_other_types str none none [] .none none none none none E u).2.2.2.2.2 app v), v0, ov⟩

/-- Unions of built-in types whose members' own extra validators do not exceed the recursion limit. -/
inductive BuiltInTame : Leaf → Prop
  | scalar {l} : Scalar l → BuiltInTame l
  | union {ms} (resolver) : (∀ m ∈ ms, BuiltInTame m.leaf) → (∀ m ∈ ms, ∀ g ∈ m.o.validators, ∀ app v, Ends (g app v)) →
      BuiltInTame (unionType ms resolver)

/-- **C22 for built-in types**: no conversion or validator of a built-in type exceeds the recursion limit by itself. -/
theorem C22_builtin_types (l : Leaf) (hl : BuiltInTame l) : l.Tame := by
  induction hl with
  | scalar hs => exact scalar_tame hs
  | @union ms res _ hv ih =>
    have hf : ∀ app v (ns : List Member), (∀ m ∈ ns, m ∈ ms) → Ends (unionFirst app v ns) := by
      intro app v ns hns
      induction ns with
      | nil => exact ends_ok _
      | cons m ns ih2 =>
        have hm := (ih m (hns m (by simp))).1 app v
        unfold unionFirst
        split
        · exact ends_ok _
        · exact ih2 fun x hx => hns x (by simp [hx])
        · rename_i e _ he; rw [he] at hm; intro h; cases h; exact hm rfl
    have hr : ∀ app v, Ends (unionResolve res (unionMembers ms) app v) := by
      intro app v
      unfold unionResolve
      split
      · have h0 := hf app v (unionMembers ms) fun _ => mem_unionMembers
        split
        · rename_i he; rw [he] at h0; intro h; cases h; exact h0 rfl
        · exact ends_ok _
        · exact convErr_ends _
      · split
        · exact convErr_ends _
        · split
          · intro h; cases h
          · rename_i m hm
            have h0 := (ih m (mem_unionMembers (List.mem_of_find?_eq_some hm))).1 app v
            split
            · exact ends_ok _
            · exact convErr_ends _
            · rename_i he; rw [he] at h0; intro h; cases h; exact h0 rfl
    refine ⟨fun app v => ?_, (by intro g hg; cases hg), ?_⟩
    · have h0 := hr app v
      change Ends (unionNative (unionResolve res (unionMembers ms) app v))
      cases hu : unionResolve res (unionMembers ms) app v with
      | ok mw => exact ends_ok _
      | error e => rw [hu] at h0; intro h; cases h; exact h0 rfl
    · intro g hg b app v
      cases hg
      have h0 := hr app v
      change Ends (unionValidate b app v (unionResolve res (unionMembers ms) app v))
      cases hu : unionResolve res (unionMembers ms) app v with
      | error e => rw [hu] at h0; intro h; cases h; exact h0 rfl
      | ok mw =>
        obtain ⟨m, w⟩ := mw
        have hmem : m ∈ ms := mem_unionMembers (unionResolve_mem hu).1
        have hm := ih m hmem
        have hall : ∀ x, Ends (finishValidation app x (Field.mk (.leaf m.leaf) m.o).allValidators) := fun x =>
          finishValidation_ends (allValidators_ends (show Field.Tame (.mk (.leaf m.leaf) m.o) from ⟨hm, hv m hmem⟩) app x)
        change Ends (memberValidate m b app v)
        unfold memberValidate
        split
        · rename_i g hg; exact hm.2.2 g hg _ _ _
        · split
          · have h1 := hm.1 app v
            split
            · rename_i he; rw [he] at h1; intro h; cases h; exact h1 rfl
            · exact hall _
          · exact hall _

/-! ## UUIDs have 128 bits -/

theorem ofDigits_lt (ds : List Nat) (h : ∀ d ∈ ds, d < 16) : ∀ a, ofDigits 16 a ds < (a + 1) * 16 ^ ds.length := by
  induction ds with
  | nil => intro a; simp
  | cons d ds ih =>
    intro a
    have h1 := ih (fun x hx => h x (by simp [hx])) (16 * a + d)
    have h2 := h d (by simp)
    rw [ofDigits_cons]
    refine lt_of_lt_of_le h1 ?_
    rw [List.length_cons, Nat.pow_succ, Nat.mul_comm (16 ^ ds.length) 16, ← Nat.mul_assoc]
    exact Nat.mul_le_mul_right _ (by omega)

theorem hex16_lt {c : Char} {d : Nat} (h : hex16 c = some d) : d < 16 := by
  unfold hex16 at h
  split at h
  · cases h; omega
  · split at h
    · cases h; omega
    · have := digitVal_lt h; omega

theorem body_bound {cs : List Char} {ds : List Nat} (h : Body hex16 cs ds) : (∀ d ∈ ds, d < 16) ∧ ds.length ≤ cs.length := by
  induction h with
  | one h => simp [hex16_lt h]
  | cons h _ ih =>
    refine ⟨?_, by simp [ih.2]⟩
    intro d hd
    rcases List.mem_cons.1 hd with rfl | hd
    · exact hex16_lt h
    · exact ih.1 d hd
  | under h _ ih =>
    refine ⟨?_, by simp only [List.length_cons]; have := ih.2; omega⟩
    intro d hd
    rcases List.mem_cons.1 hd with rfl | hd
    · exact hex16_lt h
    · exact ih.1 d hd

theorem parseHex_bound {cs : List Char} {n : Int} (h : parseHex cs = some n) : n.toNat < 16 ^ cs.length := by
  obtain ⟨pre, post, h1, -, -⟩ := strip_spec cs
  obtain ⟨sgn, h4, -, -⟩ := sign_spec (strip cs)
  obtain ⟨p, -, hp2⟩ := hexPrefix_spec (sign (strip cs)).2
  rw [parseHex] at h
  obtain ⟨m, h7, h8⟩ := Option.map_eq_some_iff.1 h
  obtain ⟨ds, h9, h10⟩ := (body_of_digitsU hex16 16 _ 0 m).2 h7
  obtain ⟨hd, hl⟩ := body_bound h9
  have hlen : ds.length ≤ cs.length := by
    have e1 := congrArg List.length h1
    have e2 := congrArg List.length h4
    have e3 := congrArg List.length hp2
    simp only [List.length_append] at e1 e2 e3
    omega
  have hm : m < 16 ^ cs.length := by
    have := ofDigits_lt ds hd 0
    rw [← h10] at this
    refine lt_of_lt_of_le this ?_
    rw [Nat.zero_add, Nat.one_mul]
    exact Nat.pow_le_pow_right (by decide) hlen
  have : n.toNat ≤ m := by
    rw [← h8]
    unfold applySign
    split <;> omega
  omega

theorem uuid_small {v : Val} {n : Nat} (h : uuidNative v = .ok (.uuid n)) : n < 2 ^ 128 := by
  cases v with
  | uuid k =>
    simp only [uuidNative] at h
    split at h
    · cases h; assumption
    · cases h
  | str s =>
    simp only [uuidNative] at h
    cases hp : parseUuid s.toList with
    | none => rw [hp] at h; cases h
    | some k =>
      rw [hp] at h
      cases h
      unfold parseUuid at hp
      split at hp
      · rename_i hl
        obtain ⟨i, hi, rfl⟩ := Option.map_eq_some_iff.1 hp
        have := parseHex_bound hi
        rw [hl] at this
        have e : (16 : Nat) ^ 32 = 2 ^ 128 := by decide
        rw [← e]; exact this
      · cases hp
  | _ => cases h

/-! ## Idempotence -/

theorem scalar_idempotent {l : Leaf} (h : ∀ app v w, v.isEmpty = false → l.toNative app v = .ok w → w.isEmpty = false ∧ l.toNative app w = .ok w)
    (ho : l.override = none) : l.Idempotent :=
  ⟨h, fun g hg => by rw [ho] at hg; cases hg⟩

/-- The built-in scalar types other than datetimes. -/
inductive Plain : Leaf → Prop
  | int (lo hi strict) : Plain (intType lo hi strict)
  | float (lo hi strict) : Plain (floatType lo hi strict)
  | decimal (str lo hi) : Plain (decimalType str lo hi)
  | string (re max min) : Plain (stringType re max min)
  | hash (len re max min) : Plain (hashType len re max min)
  | pattern (msg r re max min) : Plain (patternType msg r re max min)
  | mac (re max min) : Plain (macType re max min)
  | boolean : Plain booleanType
  | uuid (str) : Plain (uuidType str)
  | date (formats) : Plain (dateType formats)
  | timedelta (u) : Plain (timedeltaType u)
  | geo : Plain geoType
  | multi (dflt re max min locRe) : Plain (multiType dflt re max min locRe)
  | enum (str E useValues) : Plain (enumType str E useValues)

theorem Plain.scalar {l : Leaf} (h : Plain l) : Scalar l := by cases h <;> constructor

/-- **C16 for built-in types**: the conversion of every built-in scalar type is idempotent; for datetimes see `C53_idempotent`. -/
theorem C16_builtin_types (l : Leaf) (hl : Plain l) : l.Idempotent := by
  refine scalar_idempotent ?_ (scalar_override hl.scalar)
  intro app v w hv h
  refine ⟨(C05_builtin_types l (.scalar hl.scalar)).1 _ _ _ hv h, ?_⟩
  cases hl with
  | int => obtain ⟨_, rfl⟩ := intNative_val h; rfl
  | float => obtain ⟨_, rfl⟩ := floatNative_val h; rfl
  | decimal => obtain ⟨_, rfl⟩ := decimalNative_val h; rfl
  | string => obtain ⟨_, rfl⟩ := stringNative_val h; rfl
  | hash => obtain ⟨_, rfl, h'⟩ := hashNative_val h; exact h'
  | pattern => obtain ⟨_, rfl⟩ := stringNative_val h; rfl
  | mac => obtain ⟨_, rfl⟩ := stringNative_val h; rfl
  | boolean => obtain ⟨_, rfl⟩ := booleanNative_val h; rfl
  | uuid =>
    obtain ⟨n, rfl⟩ := uuidNative_val h
    show uuidNative (.uuid n) = _
    have hn := uuid_small h
    simp only [uuidNative]
    rw [if_pos hn]
  | date => obtain ⟨_, rfl⟩ := dateNative_val h; rfl
  | timedelta => obtain ⟨_, rfl⟩ := tdNative_val h; rfl
  | geo => obtain ⟨rfl, -⟩ := geoNative_val h; exact h
  | multi => obtain ⟨rfl, -⟩ := multiNative_val h; exact h
  | enum str E u =>
    obtain ⟨n, x, rfl⟩ := enumNative_val h
    show enumNative E u _ = _
    simp [enumNative, EnumDef.has]

/-! ## Round trips -/

/-- The scalar types whose export always reads back. -/
inductive Portable : Leaf → Prop
  | int (lo hi strict) : Portable (intType lo hi strict)
  | float (lo hi strict) : Portable (floatType lo hi strict)
  | decimal (str lo hi) : Portable (decimalType str lo hi)
  | string (re max min) : Portable (stringType re max min)
  | hash (len re max min) : Portable (hashType len re max min)
  | pattern (msg r re max min) : Portable (patternType msg r re max min)
  | boolean : Portable booleanType
  | uuid (str) : Portable (uuidType str)
  | geo : Portable geoType

theorem Portable.scalar {l : Leaf} (h : Portable l) : Scalar l := by cases h <;> constructor

/-- **C32 for built-in types**: numbers, decimals, texts, hashes, addresses, booleans, UUIDs and geo points read back what they export.
(Not so: MAC addresses, dates of early years, datetimes, timestamps, durations, localised texts; see C50 to C55, C61, C63.) -/
theorem C32_builtin_types (l : Leaf) (hl : Portable l) (eapp iapp : Val) : l.RoundTrips eapp iapp := by
  intro u v hu h
  have hv : v.isEmpty = false := (C05_builtin_types l (.scalar hl.scalar)).1 _ _ _ hu h
  have same : l.toPrimitive eapp v = .ok v → l.toNative iapp v = .ok v →
      v.isEmpty = false ∧ ∃ p, l.toPrimitive eapp v = .ok p ∧ p.isEmpty = false ∧ l.toNative iapp p = .ok v :=
    fun h1 h2 => ⟨hv, v, h1, hv, h2⟩
  cases hl with
  | int => obtain ⟨_, rfl⟩ := intNative_val h; exact same rfl rfl
  | float => obtain ⟨_, rfl⟩ := floatNative_val h; exact same rfl rfl
  | decimal str lo hi =>
    obtain ⟨s, h1, h2⟩ := C56_import_export_import str lo hi eapp iapp u v h
    exact ⟨hv, _, h1, rfl, h2⟩
  | string => obtain ⟨_, rfl⟩ := stringNative_val h; exact same rfl rfl
  | hash => obtain ⟨_, rfl, h'⟩ := hashNative_val h; exact same rfl h'
  | pattern => obtain ⟨_, rfl⟩ := stringNative_val h; exact same rfl rfl
  | boolean => obtain ⟨_, rfl⟩ := booleanNative_val h; exact same rfl rfl
  | uuid str =>
    obtain ⟨n, rfl⟩ := uuidNative_val h
    obtain ⟨s, h1, h2, -⟩ := C49_uuid_round_trip str eapp iapp n (uuid_small h)
    exact ⟨rfl, .str s, h1, rfl, h2⟩
  | geo => obtain ⟨rfl, -⟩ := geoNative_val h; exact same rfl h

/-! ## JSON -/

/-- The scalar types whose exports are JSON values. -/
def JsonType (l : Leaf) : Prop := Scalar l ∧ l ≠ geoType ∧ ∀ str E, l ≠ enumType str E true

theorem conv_cases {P : Val → Prop} {l : Leaf} (hn : P .none) (h : ∀ app v w, l.toNative app v = .ok w → P w) {v : Val} (hc : Converted l v) : P v := by
  rcases hc with rfl | ⟨app, v0, h0⟩
  · exact hn
  · exact h _ _ _ h0

/-- **C31 for built-in types**: the exports of all built-in scalar types are JSON values, except enums exported by value (any value)
and geo points (which may be tuples). -/
theorem C31_builtin_types (l : Leaf) (hl : JsonType l) : LeafJson l := by
  obtain ⟨hl, hg, he⟩ := hl
  intro app v w hc h
  cases hl with
  | int =>
    cases h
    exact conv_cases .none (fun _ _ _ h => by obtain ⟨_, rfl⟩ := intNative_val h; exact .int _) hc
  | float =>
    cases h
    exact conv_cases .none (fun _ _ _ h => by obtain ⟨_, rfl⟩ := floatNative_val h; exact .flt _) hc
  | decimal str =>
    change decimalPrimitive str v = .ok w at h
    unfold decimalPrimitive at h
    split at h <;> cases h <;> exact .str _
  | string =>
    cases h
    exact conv_cases .none (fun _ _ _ h => by obtain ⟨_, rfl⟩ := stringNative_val h; exact .str _) hc
  | hash =>
    cases h
    exact conv_cases .none (fun _ _ _ h => by obtain ⟨_, rfl, -⟩ := hashNative_val h; exact .str _) hc
  | pattern =>
    cases h
    exact conv_cases .none (fun _ _ _ h => by obtain ⟨_, rfl⟩ := stringNative_val h; exact .str _) hc
  | mac =>
    change macPrimitive v = .ok w at h
    unfold macPrimitive at h
    split at h <;> cases h
    exact .str _
  | boolean =>
    cases h
    exact conv_cases .none (fun _ _ _ h => by obtain ⟨_, rfl⟩ := booleanNative_val h; exact .bool _) hc
  | uuid str =>
    change uuidPrimitive str v = .ok w at h
    unfold uuidPrimitive at h
    split at h <;> cases h <;> exact .str _
  | date =>
    change datePrimitive v = .ok w at h
    unfold datePrimitive at h
    split at h <;> cases h <;> exact .str _
  | datetime =>
    change dtPrimitive v = .ok w at h
    unfold dtPrimitive at h
    split at h
    · split at h <;> cases h
      exact .str _
    · cases h
  | utc =>
    change utcPrimitive v = .ok w at h
    unfold utcPrimitive at h
    split at h <;> cases h
    exact .str _
  | timestamp =>
    change tsPrimitive v = .ok w at h
    unfold tsPrimitive at h
    split at h
    · split at h <;> cases h
      exact .flt _
    · cases h
  | timedelta u =>
    change tdPrimitive u v = .ok w at h
    unfold tdPrimitive at h
    split at h <;> cases h
    exact .int _
  | geo => exact absurd rfl hg
  | multi dflt =>
    change multiPrimitive dflt app v = .ok w at h
    have ht : ∀ x, localizedText x = .ok w → Json w := by
      intro x hx
      unfold localizedText at hx
      repeat' split at hx
      all_goals first | (cases hx; exact .str _) | cases hx
    unfold multiPrimitive at h
    repeat' split at h
    all_goals first | (cases h; exact .none) | (exact ht _ h) | cases h
  | enum str E u =>
    cases u with
    | true => exact absurd rfl (he str E)
    | false =>
      change enumPrimitive str false v = .ok w at h
      unfold enumPrimitive at h
      split at h <;> cases h <;> exact .str _

/-! ## The hypotheses are met: a model made of built-in types -/

/-- `class Account(Model): id = UUIDType(required=True); balance = DecimalType(min_value=0); ip = IPv4Type(serialized_name='addr');
active = BooleanType(default=True); tags = ListType(StringType(max_length=9, required=True)); scores = DictType(FloatType(required=True));
parent = ModelType('Account')` -/
def account (str : Val → String) : ClassDef where
  name := "Account"
  fields := [
    { name := "id", field := .mk (.leaf (uuidType str)) { required := true } },
    { name := "balance", field := .mk (.leaf (decimalType str (some (.int 0)))) {} },
    { name := "ip", field := .mk (.leaf ipv4Type) { serializedName := some "addr" } },
    { name := "active", field := .mk (.leaf booleanType) { default := .bool true } },
    { name := "tags", field := .mk (.list (.mk (.leaf (stringType none (some 9))) { required := true }) none none) {} },
    { name := "scores", field := .mk (.dict (.mk (.leaf floatType) { required := true }) (fun k => .ok k)) {} },
    { name := "parent", field := .mk (.model "Account") {} }]

/-- The class table with this class. -/
def accountEnv (str : Val → String) : Env where
  cls k := if k = "Account" then some (account str) else none
  isSub a b := a == b
  subs _ := []

theorem account_fields {str : Val → String} {P : FieldDef → Prop} (h : List.Forall P (account str).fields) :
    ∀ fd ∈ (account str).fields, P fd := List.forall_iff_forall_mem.1 h

theorem account_cls {str : Val → String} {k : String} {c : ClassDef} (h : (accountEnv str).cls k = some c) : k = "Account" ∧ c = account str := by
  simp only [accountEnv] at h
  split at h
  · cases h; exact ⟨by assumption, rfl⟩
  · cases h

theorem account_wf (str : Val → String) : (account str).WF := by
  show (["id", "balance", "ip", "active", "tags", "scores", "parent"] : List String).Nodup
  decide

theorem account_portable (str : Val → String) : (account str).Portable {} (.dict []) ∧ ∀ fd ∈ (account str).fields, fd.field.Nodes FirmNode :=
  have hl : NOT_NONE < DEFAULT := by decide
  ⟨{ wf := account_wf str
     simple := account_fields ⟨⟨rfl, rfl⟩, ⟨rfl, rfl⟩, ⟨rfl, rfl⟩, ⟨rfl, rfl⟩, ⟨rfl, rfl⟩, ⟨rfl, rfl⟩, ⟨rfl, rfl⟩⟩
     names := by
      constructor
      · show (["id", "balance", "addr", "active", "tags", "scores", "parent"] : List String).Nodup
        decide
      · refine account_fields ⟨?_, ?_, ?_, ?_, ?_, ?_, ?_⟩ <;> refine account_fields ⟨?_, ?_, ?_, ?_, ?_, ?_, ?_⟩ <;>
          simp [account, FieldDef.extName]
     unfiltered := rfl
     shown := account_fields ⟨⟨hl, trivial⟩, ⟨hl, trivial⟩, ⟨hl, trivial⟩, ⟨hl, trivial⟩, ⟨hl, hl, trivial⟩, ⟨hl, hl, trivial⟩, ⟨hl, trivial⟩⟩
     nodes := account_fields ⟨C32_builtin_types _ (.uuid _) _ _, C32_builtin_types _ (.decimal _ _ _) _ _, C32_builtin_types _ (.pattern _ _ _ _ _) _ _,
      C32_builtin_types _ .boolean _ _, ⟨trivial, C32_builtin_types _ (.string _ _ _) _ _⟩,
      ⟨fun k k' h => by cases h; rfl, C32_builtin_types _ (.float _ _ _) _ _⟩, trivial⟩ },
   account_fields ⟨trivial, trivial, trivial, trivial, ⟨rfl, trivial⟩, ⟨rfl, trivial⟩, trivial⟩⟩

/-- **C32 on a real model**: whatever input an `Account` accepts, exporting and importing gives the same account, at any nesting depth. -/
theorem C32_account (str : Val → String) (m : Nat) (raw d : Data) (h : runImport (accountEnv str) m Samples.ictx (account str) (.inst []) raw = .ok d) :
    ∃ N, ∀ n, N ≤ n → ∃ e, runExport (accountEnv str) n {} (account str) (.inst d) = .ok e ∧
      runImport (accountEnv str) n Samples.ictx (account str) (.inst []) e = .ok d :=
  C32_imported_round_trip (accountEnv str) {} Samples.ictx rfl ⟨rfl, ⟨rfl, rfl⟩, rfl, rfl, rfl, rfl⟩
    (fun k c h => by obtain ⟨rfl, rfl⟩ := account_cls h; exact ⟨rfl, account_portable str⟩)
    (by intro a b; simp [accountEnv]) (account str) (account_portable str) m raw d h

theorem account_stable (str : Val → String) (b : Bool) : (account str).Stable (accountEnv str) b where
  wf := account_wf str
  simple := (account_portable str).1.simple
  pure := by intro nf h; cases h
  clash := by
    refine account_fields ⟨?_, ?_, ?_, ?_, ?_, ?_, ?_⟩ <;> refine account_fields ⟨?_, ?_, ?_, ?_, ?_, ?_, ?_⟩ <;>
      simp [ownNames, show Mapping.empty.entries = [] from rfl, Dict.get?]
  nodes := account_fields ⟨C16_builtin_types _ (.uuid _), C16_builtin_types _ (.decimal _ _ _),
    C16_builtin_types _ (.pattern _ _ _ _ _), C16_builtin_types _ .boolean,
    ⟨trivial, C16_builtin_types _ (.string _ _ _)⟩,
    ⟨fun k k' h => by cases h; rfl, C16_builtin_types _ (.float _ _ _)⟩, trivial⟩

/-- **C16 on a real model.** -/
theorem C16_account (str : Val → String) (n : Nat) (raw d : Data) (h : runImport (accountEnv str) n Samples.ictx (account str) (.inst []) raw = .ok d) :
    runImport (accountEnv str) n Samples.ictx (account str) (.inst []) d = .ok d :=
  ((C16_conversion_idempotent (accountEnv str) n Samples.ictx (account str)
    { named := fun k c h => by obtain ⟨rfl, rfl⟩ := account_cls h; rfl
      refl := fun k => by simp [accountEnv]
      classes := fun k c h => by obtain ⟨rfl, rfl⟩ := account_cls h; exact account_stable str _ }
    (account_stable str _) ⟨rfl, Or.inl ⟨rfl, rfl⟩, rfl, Or.inl rfl, Or.inl rfl⟩ raw d).1 h).1

example (str : Val → String) : runImport (accountEnv str) 5 Samples.ictx (account str) (.inst [])
    [(.str "id", .uuid 5), (.str "balance", .str "1.50"), (.str "addr", .str "10.0.0.1"), (.str "tags", .list [.str "a", .int 7]),
     (.str "parent", .dict [(.str "id", .uuid 6), (.str "active", .str "0")])] =
    .ok [(.str "id", .uuid 5), (.str "balance", .decimal (.fin false 150 (-2))), (.str "ip", .str "10.0.0.1"), (.str "active", .bool true),
     (.str "tags", .list [.str "a", .str "7"]), (.str "scores", .none),
     (.str "parent", .inst "Account" [(.str "id", .uuid 6), (.str "balance", .none), (.str "ip", .none), (.str "active", .bool false),
       (.str "tags", .none), (.str "scores", .none), (.str "parent", .none)])] := by rfl

end Verif.Types
