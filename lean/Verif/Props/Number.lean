import Verif.Types.Number
import Verif.Types.Text

/-!
# Numbers: C44, C45, C46, C56
-/
namespace Verif.Types
open Verif.Py

/-! ## C44 -/

/-- The int `n` that an input denotes; with `strict`, floats and decimals denote none. -/
inductive DenotesInt (strict : Bool) : Val → Int → Prop
  | int (i : Int) : DenotesInt strict (.int i) i
  | bool (b : Bool) : DenotesInt strict (.bool b) (if b then 1 else 0)
  | text {s : String} {n : Int} : IntLiteral s.toList n → DenotesInt strict (.str s) n
  | flt {m : Int} {k : Nat} {n : Int} : strict = false → (m : ℚ) / 2 ^ k = n → DenotesInt strict (.flt (.fin m k)) n
  | dec {neg : Bool} {c : Nat} {e n : Int} : strict = false → (if neg then -1 else 1) * (c : ℚ) * 10 ^ e = n →
      DenotesInt strict (.decimal (.fin neg c e)) n

theorem trunc_int (n : Int) : trunc (n : ℚ) = n := by simp [trunc]

theorem toRat_flt (m : Int) (k : Nat) : (Val.flt (.fin m k)).toRat? = some ((m : ℚ) / 2 ^ k) := by
  simp [Val.toRat?, mkRat_pow]

theorem toRat_dec (neg : Bool) (c : Nat) (e : Int) :
    (Val.decimal (.fin neg c e)).toRat? = some ((if neg then -1 else 1) * (c : ℚ) * 10 ^ e) := by
  simp only [Val.toRat?]
  split
  · rename_i he
    obtain ⟨k, rfl⟩ := Int.eq_ofNat_of_zero_le he
    simp only [Int.ofNat_eq_natCast, Int.toNat_natCast, zpow_natCast]
    cases neg <;> simp
  · rename_i he
    obtain ⟨k, hk⟩ := Int.eq_ofNat_of_zero_le (show 0 ≤ -e by omega)
    have : e = -(k : Int) := by omega
    subst this
    rw [Rat.mkRat_eq_div]
    simp only [neg_neg, Int.toNat_natCast, zpow_neg, zpow_natCast]
    cases neg <;> simp [div_eq_mul_inv]

theorem pyEq_int_rat {w : Int} {v : Val} {q : ℚ} (hv : (∃ m k, v = .flt (.fin m k)) ∨ ∃ neg c e, v = .decimal (.fin neg c e))
    (h : v.toRat? = some q) : (Val.int w).pyEq v = decide ((w : ℚ) = q) := by
  have hw : (Val.int w).toRat? = some (w : ℚ) := rfl
  rcases hv with ⟨m, k, rfl⟩ | ⟨neg, c, e, rfl⟩ <;>
    (simp only [Val.pyEq]
     rw [h, hw]
     rfl)

theorem accept_exact {strict : Bool} {v w : Val} {q : ℚ}
    (hv : (∃ m k, v = .flt (.fin m k)) ∨ ∃ neg c e, v = .decimal (.fin neg c e)) (h : v.toRat? = some q) :
    accept .int strict v (.val (.int (trunc q))) = .ok w ↔ ∃ n : Int, w = .int n ∧ strict = false ∧ q = n := by
  have ht : isTextOrInt v = false := by
    rcases hv with ⟨m, k, rfl⟩ | ⟨neg, c, e, rfl⟩ <;> rfl
  simp only [accept, pyEq_int_rat hv h, ht, Bool.and_eq_true, Bool.not_eq_true', decide_eq_true_eq]
  constructor
  · intro hh
    by_cases hc : strict = false ∧ ((trunc q : Int) : ℚ) = q
    · simp only [hc, and_self, if_true, reduceCtorEq, if_false, Except.ok.injEq] at hh
      exact ⟨trunc q, hh.symm, hc.1, hc.2.symm⟩
    · simp [hc, convErr] at hh
  · rintro ⟨n, rfl, rfl, rfl⟩
    simp [trunc_int]

/-- **C44.** `IntType` accepts a value iff it denotes an int, and returns that int. -/
theorem C44_int_conversion (min max : Option Val) (strict : Bool) (app v w : Val) :
    (intType min max strict).toNative app v = .ok w ↔ ∃ n, w = .int n ∧ DenotesInt strict v n := by
  simp only [intType]
  cases v with
  | int i =>
    constructor
    · intro h; cases h; exact ⟨i, rfl, .int i⟩
    · rintro ⟨n, rfl, h⟩; cases h; rfl
  | bool b =>
    constructor
    · intro h; cases h; exact ⟨_, rfl, .bool b⟩
    · rintro ⟨n, rfl, h⟩; cases h; rfl
  | str s =>
    have hred : numberNative .int strict (.str s) = match parseInt s.toList with
        | some n => .ok (.int n)
        | none => convErr "number_coerce" := by
      simp only [numberNative, unBool, NumTy.isNative, NumTy.call, callInt]
      cases h : parseInt s.toList with
      | none => rfl
      | some n => simp [Call.ofOpt, accept, isTextOrInt]
    rw [hred]
    constructor
    · intro h
      cases hp : parseInt s.toList with
      | none => simp [hp, convErr] at h
      | some n =>
        simp only [hp, Except.ok.injEq] at h
        exact ⟨n, h.symm, .text ((parseInt_iff _ _).1 hp)⟩
    · rintro ⟨n, rfl, h⟩
      cases h with
      | text h => rw [(parseInt_iff _ _).2 h]
  | flt f =>
    cases f with
    | fin m k =>
      have h : numberNative .int strict (.flt (.fin m k)) = accept .int strict (.flt (.fin m k)) (.val (.int (trunc ((m : ℚ) / 2 ^ k)))) := by
        simp only [numberNative, unBool, NumTy.isNative, NumTy.call, callInt, toRat_flt, Call.ofOpt]
        rfl
      rw [h, accept_exact (Or.inl ⟨m, k, rfl⟩) (toRat_flt m k)]
      constructor
      · rintro ⟨n, h1, h2, h3⟩; exact ⟨n, h1, .flt h2 h3⟩
      · rintro ⟨n, h1, h2⟩
        cases h2 with
        | flt h2 h3 => exact ⟨n, h1, h2, h3⟩
    | inf b =>
      constructor
      · intro h; cases h
      · rintro ⟨n, _, h⟩; cases h
    | nan =>
      constructor
      · intro h; cases h
      · rintro ⟨n, _, h⟩; cases h
  | decimal d =>
    cases d with
    | fin neg c e =>
      have h : numberNative .int strict (.decimal (.fin neg c e)) =
          accept .int strict (.decimal (.fin neg c e)) (.val (.int (trunc ((if neg then -1 else 1) * (c : ℚ) * 10 ^ e)))) := by
        simp only [numberNative, unBool, NumTy.isNative, NumTy.call, callInt, toRat_dec, Call.ofOpt]
        rfl
      rw [h, accept_exact (Or.inr ⟨neg, c, e, rfl⟩) (toRat_dec neg c e)]
      constructor
      · rintro ⟨n, h1, h2, h3⟩; exact ⟨n, h1, .dec h2 h3⟩
      · rintro ⟨n, h1, h2⟩
        cases h2 with
        | dec h2 h3 => exact ⟨n, h1, h2, h3⟩
    | inf b =>
      constructor
      · intro h; cases h
      · rintro ⟨n, _, h⟩; cases h
    | nan b =>
      constructor
      · intro h; cases h
      · rintro ⟨n, _, h⟩; cases h
  | bytes bs =>
    constructor
    · intro h
      simp only [numberNative, unBool, NumTy.isNative, NumTy.call, callInt] at h
      cases hp : parseInt (bytesText bs) with
      | none => simp [hp, Call.ofOpt, accept, convErr] at h
      | some n =>
        have : (Val.int n).pyEq (.bytes bs) = false := by simp [Val.pyEq, Val.toRat?]
        simp [hp, Call.ofOpt, accept, convErr, this, isTextOrInt] at h
    · rintro ⟨n, _, h⟩; cases h
  | uuid u =>
    constructor
    · intro h
      have : (Val.int u).pyEq (.uuid u) = false := by simp [Val.pyEq, Val.toRat?]
      simp [numberNative, unBool, NumTy.isNative, NumTy.call, callInt, accept, convErr, this, isTextOrInt] at h
    · rintro ⟨n, _, h⟩; cases h
  | _ =>
    constructor
    · intro h; cases h
    · rintro ⟨n, _, h⟩; cases h

/-- **C44 (refusals).** Everything else is refused with `ConversionError`, except the infinities. -/
theorem C44_int_refusal (min max : Option Val) (strict : Bool) (app v : Val) (e : Exc)
    (h : (intType min max strict).toNative app v = .error e) :
    (∃ m, e = .field .conv m) ∨ ((∃ b, v = .flt (.inf b)) ∨ ∃ b, v = .decimal (.inf b)) ∧ e = .other "OverflowError" := by
  simp only [intType, numberNative] at h
  split at h
  · cases h
  · cases hc : NumTy.int.call (unBool v) with
    | bad => rw [hc] at h; simp only [accept, convErr, Except.error.injEq] at h; exact Or.inl ⟨_, h.symm⟩
    | val w =>
      rw [hc] at h
      simp only [accept] at h
      split at h
      · cases h
      · split at h
        · cases h
        · split at h
          · cases h
          · simp only [convErr, Except.error.injEq] at h; exact Or.inl ⟨_, h.symm⟩
    | overflow =>
      rw [hc] at h
      simp only [accept, Except.error.injEq] at h
      refine Or.inr ⟨?_, h.symm⟩
      cases v with
      | flt f =>
        cases f with
        | inf b => exact Or.inl ⟨b, rfl⟩
        | fin m k => simp [NumTy.call, unBool, callInt, Call.ofOpt, toRat_flt] at hc
        | nan => cases hc
      | decimal d =>
        cases d with
        | inf b => exact Or.inr ⟨b, rfl⟩
        | fin m k e => simp [NumTy.call, unBool, callInt, Call.ofOpt, toRat_dec] at hc
        | nan => cases hc
      | str s =>
        simp only [NumTy.call, unBool, callInt] at hc
        cases hp : parseInt s.toList <;> rw [hp] at hc <;> cases hc
      | bytes s =>
        simp only [NumTy.call, unBool, callInt] at hc
        cases hp : parseInt (bytesText s) <;> rw [hp] at hc <;> cases hc
      | _ => cases hc

/-- **C44 fails for infinities:** `OverflowError` escapes from `IntType`. -/
theorem C44_counterexample_infinity : (intType none none false).toNative .none (.flt (.inf false)) = .error (.other "OverflowError") := rfl

/-! ## C45 -/

/-- A number on the extended rational line; NaN is not on it. -/
def onLine : Val → Option (WithBot (WithTop ℚ))
  | .flt (.inf false) => some ((⊤ : WithTop ℚ) : WithBot (WithTop ℚ))
  | .flt (.inf true) => some ⊥
  | .decimal (.inf false) => some ((⊤ : WithTop ℚ) : WithBot (WithTop ℚ))
  | .decimal (.inf true) => some ⊥
  | v => v.toRat?.map fun (q : ℚ) => ((q : WithTop ℚ) : WithBot (WithTop ℚ))

/-- Where a comparison operand lies. -/
def _root_.Verif.Py.Num.line : Num → Option (WithBot (WithTop ℚ))
  | .fin q => some ((q : WithTop ℚ) : WithBot (WithTop ℚ))
  | .inf false => some ((⊤ : WithTop ℚ) : WithBot (WithTop ℚ))
  | .inf true => some ⊥
  | .nan => none

theorem numOf_line {v : Val} {x : WithBot (WithTop ℚ)} (h : onLine v = some x) : ∃ a, numOf v = some a ∧ Num.line a = some x := by
  cases v with
  | flt f =>
    cases f with
    | fin m k => simp only [onLine, toRat_flt, Option.map_some] at h; exact ⟨.fin ((m : ℚ) / 2 ^ k), by simp only [numOf, toRat_flt]; rfl, h⟩
    | inf b => cases b <;> exact ⟨_, rfl, h⟩
    | nan => simp [onLine, Val.toRat?] at h
  | decimal d =>
    cases d with
    | fin m k e => simp only [onLine, toRat_dec, Option.map_some] at h; exact ⟨.fin ((if m then -1 else 1) * (k : ℚ) * 10 ^ e), by simp only [numOf, toRat_dec]; rfl, h⟩
    | inf b => cases b <;> exact ⟨_, rfl, h⟩
    | nan => simp [onLine, Val.toRat?] at h
  | _ => first
    | (simp only [onLine, Val.toRat?, Option.map_some] at h; exact ⟨_, rfl, h⟩)
    | (simp [onLine, Val.toRat?] at h)

theorem _root_.Verif.Py.Num.lt_iff {a b : Num} {x y : WithBot (WithTop ℚ)} (ha : a.line = some x) (hb : b.line = some y) :
    a.lt b = true ↔ x < y := by
  have coe : ∀ q : ℚ, (⊥ : WithBot (WithTop ℚ)) < ((q : WithTop ℚ) : WithBot (WithTop ℚ)) := fun q => WithBot.bot_lt_coe _
  have top : ∀ q : ℚ, ((q : WithTop ℚ) : WithBot (WithTop ℚ)) < ((⊤ : WithTop ℚ) : WithBot (WithTop ℚ)) := fun q =>
    WithBot.coe_lt_coe.2 (WithTop.coe_lt_top q)
  have bt : (⊥ : WithBot (WithTop ℚ)) < ((⊤ : WithTop ℚ) : WithBot (WithTop ℚ)) := WithBot.bot_lt_coe _
  cases a with
  | fin p =>
    cases ha
    cases b with
    | fin q =>
      cases hb
      simp [Num.lt, WithBot.coe_lt_coe, WithTop.coe_lt_coe]
    | inf n =>
      cases n <;> cases hb
      · simp only [Num.lt, Bool.not_false, true_iff]; exact top p
      · simp only [Num.lt, Bool.not_true, Bool.false_eq_true, false_iff, not_lt]; exact le_of_lt (coe p)
    | nan => cases hb
  | inf m =>
    cases m <;> cases ha
    · cases b with
      | fin q => cases hb; simp only [Num.lt, Bool.false_eq_true, false_iff, not_lt]; exact le_of_lt (top q)
      | inf n =>
        cases n <;> cases hb
        · simp [Num.lt]
        · simp only [Num.lt, Bool.not_true, Bool.false_eq_true, false_iff, not_lt, Bool.and_false]; exact le_of_lt bt
      | nan => cases hb
    · cases b with
      | fin q => cases hb; simp only [Num.lt, true_iff]; exact coe q
      | inf n =>
        cases n <;> cases hb
        · simp only [Num.lt, Bool.not_false, Bool.and_self, true_iff]; exact bt
        · simp [Num.lt]
      | nan => cases hb
  | nan => cases ha

theorem pyLt_line {v w : Val} {x y : WithBot (WithTop ℚ)} (hv : onLine v = some x) (hw : onLine w = some y) :
    pyLt v w = .ok (decide (x < y)) := by
  obtain ⟨a, h1, h2⟩ := numOf_line hv
  obtain ⟨b, h3, h4⟩ := numOf_line hw
  have ha : (a == .nan) = false := by cases a <;> first | rfl | cases h2
  have hb : (b == .nan) = false := by cases b <;> first | rfl | cases h4
  simp only [pyLt, h1, h3, ha, hb, Bool.or_self, Bool.and_false, Bool.false_eq_true, if_false]
  congr 1
  by_cases h : x < y
  · simp [h, (Num.lt_iff h2 h4).2 h]
  · have := mt (Num.lt_iff h2 h4).1 h
    simp [h, Bool.eq_false_iff.2 this]

/-- The bound, if given, is a number (not NaN) at that place. -/
def BoundAt (b : Option Val) (x : Option (WithBot (WithTop ℚ))) : Prop :=
  match b, x with
  | some v, some x => onLine v = some x
  | none, none => True
  | _, _ => False

/-- **C45.** A number other than NaN passes the range check iff `min_value <= v <= max_value`, both inclusive, compared
exactly whatever the number types (a missing bound does not constrain). -/
theorem C45_range (min max : Option Val) (lo hi : Option (WithBot (WithTop ℚ))) (app v : Val) (x : WithBot (WithTop ℚ))
    (hv : onLine v = some x) (hlo : BoundAt min lo) (hhi : BoundAt max hi) :
    validateRange min max app v = .ok () ↔ (∀ l, lo = some l → l ≤ x) ∧ (∀ h, hi = some h → x ≤ h) := by
  have hmin : minCheck min v = .ok () ↔ ∀ l, lo = some l → l ≤ x := by
    cases min with
    | none => cases lo with | none => simp [minCheck] | some _ => cases hlo
    | some m =>
      cases lo with
      | none => cases hlo
      | some l =>
        simp only [minCheck, pyLt_line hv hlo, bound]
        by_cases h : x < l
        · simp [h, validErr]
        · simp [h, not_lt.1 h]
  have hmax : maxCheck max v = .ok () ↔ ∀ h, hi = some h → x ≤ h := by
    cases max with
    | none => cases hi with | none => simp [maxCheck] | some _ => cases hhi
    | some m =>
      cases hi with
      | none => cases hhi
      | some l =>
        simp only [maxCheck, pyLt_line hhi hv, bound]
        by_cases h : l < x
        · simp [h, validErr]
        · simp [h, not_lt.1 h]
  rw [← hmin, ← hmax, validateRange]
  cases h : minCheck min v with
  | error e => simp
  | ok u => cases u; simp

/-- **C45 for `IntType`** with int bounds: the usual integer range. -/
theorem C45_int_range (min max : Option Int) (app : Val) (i : Int) :
    validateRange (min.map .int) (max.map .int) app (.int i) = .ok () ↔ (∀ l, min = some l → l ≤ i) ∧ (∀ h, max = some h → i ≤ h) := by
  rw [C45_range (min.map .int) (max.map .int)
    (min.map fun (l : Int) => (((l : ℚ) : WithTop ℚ) : WithBot (WithTop ℚ)))
    (max.map fun (l : Int) => (((l : ℚ) : WithTop ℚ) : WithBot (WithTop ℚ))) app (.int i) (((i : ℚ) : WithTop ℚ) : WithBot (WithTop ℚ))
    rfl (by cases min <;> simp [BoundAt, onLine, Val.toRat?]) (by cases max <;> simp [BoundAt, onLine, Val.toRat?])]
  cases min <;> cases max <;> simp [WithBot.coe_le_coe, WithTop.coe_le_coe]

/-- A bound that is an int or float, if given. -/
def PlainBound (b : Option Val) : Prop := ∀ v, b = some v → isDec v = false ∧ (numOf v).isSome

theorem pyLt_nan (v w : Val) (a b : Num) (ha : numOf v = some a) (hb : numOf w = some b) (h : a = .nan ∨ b = .nan) :
    pyLt v w = if isDec v || isDec w then .error (.other "InvalidOperation") else .ok false := by
  unfold pyLt
  rw [ha, hb]
  have hn : (a == .nan || b == .nan) = true := by rcases h with rfl | rfl <;> simp
  have hl : a.lt b = false := by
    rcases h with rfl | rfl
    · cases b <;> rfl
    · cases a with
      | inf b => cases b <;> rfl
      | _ => rfl
  simp only [hn, hl, Bool.and_true]

/-- **C45 for NaN:** a float NaN is within every range of ints and floats. -/
theorem C45_nan (min max : Option Val) (h1 : PlainBound min) (h2 : PlainBound max) (app : Val) :
    validateRange min max app (.flt .nan) = .ok () := by
  have hmin : minCheck min (.flt .nan) = .ok () := by
    cases min with
    | none => rfl
    | some m =>
      obtain ⟨hd, hs⟩ := h1 m rfl
      cases hn : numOf m with
      | none => rw [hn] at hs; cases hs
      | some b => simp only [minCheck, pyLt_nan (.flt .nan) m .nan b rfl hn (.inl rfl), hd]; rfl
  have hmax : maxCheck max (.flt .nan) = .ok () := by
    cases max with
    | none => rfl
    | some m =>
      obtain ⟨hd, hs⟩ := h2 m rfl
      cases hn : numOf m with
      | none => rw [hn] at hs; cases hs
      | some b => simp only [maxCheck, pyLt_nan m (.flt .nan) b .nan hn rfl (.inr rfl), hd]; rfl
  rw [validateRange, hmin, hmax]

/-- ... and a `Decimal` NaN makes `validate_range` raise `InvalidOperation`, which is no validation error, whatever number the lower bound is. -/
theorem C45_decimal_nan (m : Val) (hm : (numOf m).isSome) (max : Option Val) (app : Val) (s : Bool) :
    validateRange (some m) max app (.decimal (.nan s)) = .error (.other "InvalidOperation") := by
  cases hn : numOf m with
  | none => rw [hn] at hm; cases hm
  | some b => simp only [validateRange, minCheck, pyLt_nan (.decimal (.nan s)) m .nan b rfl hn (.inl rfl)]; rfl

/-- Such a NaN comes from the text `NaN`. -/
theorem C45_decimal_nan_text (str : Val → String) : (decimalType str (some (.int 0))).toNative .none (.str "NaN") = .ok (.decimal (.nan false)) := by
  simp [decimalType, decimalNative, decimalOfText]; rfl

/-! ## C46 -/

/-- **C46.** For every int, importing `str(n)` into an `IntType` gives `n` back, and a `StringType` given `n` stores that very text. -/
theorem C46_int_text (min max : Option Val) (strict : Bool) (app : Val) (n : Int) :
    ∃ s, (stringType).toNative app (.int n) = .ok (.str s) ∧ (intType min max strict).toNative app (.str s) = .ok (.int n) ∧
      (stringType).toNative app (.str s) = .ok (.str s) := by
  refine ⟨String.ofList (intText n), rfl, ?_, rfl⟩
  rw [C44_int_conversion]
  refine ⟨n, rfl, .text ?_⟩
  rw [String.toList_ofList]
  exact intText_literal n

/-! ## The hypotheses are met -/
example : DenotesInt false (.str " -1_0\n") (-10) :=
  .text ⟨[' '], ['-'], ['1', '_', '0'], ['\n'], [1, 0], rfl, by decide, by decide, by decide, .under (by decide) (.one (by decide)), rfl⟩
example : (intType none none false).toNative .none (.str " -1_0\n") = .ok (.int (-10)) := rfl
example : (intType none none false).toNative .none (.flt (.fin 12 2)) = .ok (.int 3) := by
  rw [C44_int_conversion]; exact ⟨3, rfl, .flt rfl (by norm_num)⟩
example : (intType none none true).toNative .none (.flt (.fin 12 2)) = convErr "number_coerce" := rfl
example : (intType none none false).toNative .none (.flt (.fin 13 2)) = convErr "number_coerce" := rfl
example : onLine (.decimal (.fin true 15 (-1))) = some (((-3/2 : ℚ) : WithTop ℚ) : WithBot (WithTop ℚ)) := by
  simp only [onLine, toRat_dec]; norm_num
example : validateRange (some (.int 1)) (some (.flt (.inf false))) .none (.decimal (.fin false 10 (-1))) = .ok () := rfl
example : validateRange (some (.int 1)) none .none (.flt (.fin 1 1)) = validErr "number_min" := rfl

end Verif.Types
