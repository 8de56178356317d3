import Mathlib.Data.Rat.Floor
import Verif.Py.FloatMore
import Verif.Props.DateTime

/-!
# C54, C55: timestamps and timedeltas, with real IEEE doubles
-/
namespace Verif.Types
open Verif.Py

/-! ## Truncation -/

/-- Truncation toward zero of a non-negative or negative number, by integer bounds. -/
theorem trunc_of_nonneg {q : ℚ} {k : Int} (h0 : 0 ≤ q) (h1 : (k : ℚ) ≤ q) (h2 : q < k + 1) : trunc q = k := by
  have hk : ⌊q⌋ = k := Int.floor_eq_iff.2 ⟨h1, h2⟩
  rw [← hk, trunc, Int.tdiv_eq_ediv_of_nonneg (Rat.num_nonneg.2 h0), Rat.floor_def']

theorem trunc_neg (q : ℚ) : trunc (-q) = - trunc q := by
  unfold trunc
  rw [Rat.num_neg_eq_neg_num, Rat.den_neg_eq_den, Int.neg_tdiv]

theorem trunc_of_nonpos {q : ℚ} {k : Int} (h0 : q ≤ 0) (h1 : q ≤ k) (h2 : (k : ℚ) - 1 < q) : trunc q = k := by
  have := @trunc_of_nonneg (-q) (-k) (by linarith) (by push_cast; linarith) (by push_cast; linarith)
  rw [trunc_neg] at this
  omega

theorem trunc_int (n : Int) : trunc (n : ℚ) = n := by
  unfold trunc
  simp

/-- The fraction that truncation drops is smaller than one. -/
theorem trunc_frac (q : ℚ) : |q - trunc q| < 1 := by
  by_cases h : 0 ≤ q
  · rw [trunc_of_nonneg h (Int.floor_le q) (Int.lt_floor_add_one q), abs_lt]
    have h1 := Int.floor_le q
    have h2 := Int.lt_floor_add_one q
    constructor <;> linarith
  · have h' : q ≤ 0 := by linarith
    rw [trunc_of_nonpos h' (Int.le_ceil q) (by have := Int.ceil_lt_add_one q; linarith), abs_lt]
    have h1 := Int.le_ceil q
    have h2 := Int.ceil_lt_add_one q
    constructor <;> linarith

/-! ## `timedelta(seconds=x)` inverts `total_seconds()` -/

theorem rhe_near {z : Int} {g : ℚ} {k : Int} (h : |((z : ℚ) + g) - k| < 1 / 2) : rhe (z * g.den + g.num) g.den = k := by
  apply rhe_unique _ _ _ g.den_pos
  have hd : (0 : ℚ) < g.den := by exact_mod_cast g.den_pos
  have h1 : (((k * g.den - (z * g.den + g.num)) : Int) : ℚ) = -(((z : ℚ) + g) - k) * g.den := by
    push_cast
    conv_lhs => rw [← Rat.mul_den_eq_num g]
    ring
  have h2 : |(((k * g.den - (z * g.den + g.num)) : Int) : ℚ)| * 2 < g.den := by
    rw [h1, abs_mul, abs_neg, abs_of_pos hd]
    nlinarith
  have h3 : (((|k * g.den - (z * g.den + g.num)| : Int) : ℚ)) * 2 < g.den := by push_cast at *; exact h2
  exact_mod_cast h3

theorem deltaUs_near {x : ℚ} {k : Int} (h : |x * 1000000 - k| ≤ 1 / 2 - 1 / 2 ^ 30) : deltaUs 1000000 x = some k := by
  have hfrac := trunc_frac x
  have hE : |((1000000 : ℕ) : ℚ) * (x - trunc x)| < 2 ^ (20 : Int) := by
    rw [abs_mul]
    have : |((1000000 : ℕ) : ℚ)| = 1000000 := by norm_num
    rw [this, show (2 : ℚ) ^ (20 : Int) = 1048576 by norm_num]
    have := abs_nonneg (x - trunc x)
    nlinarith
  obtain ⟨g, hg, herr⟩ := ofRat_error _ 20 (by norm_num) (by norm_num) hE
  unfold deltaUs
  rw [hg]
  simp only [Option.some.injEq]
  have := @rhe_near (trunc x * (1000000 : ℕ)) g k ?_
  · exact this
  · have e : (((trunc x * (1000000 : ℕ) : Int) : ℚ) + g) - k = (g - ((1000000 : ℕ) : ℚ) * (x - trunc x)) + (x * 1000000 - k) := by
      push_cast; ring
    rw [e]
    have h1 := abs_add_le (g - ((1000000 : ℕ) : ℚ) * (x - trunc x)) (x * 1000000 - k)
    have h2 : (2 : ℚ) ^ ((20 : Int) - 54) = 1 / 2 ^ 34 := by norm_num
    rw [h2] at herr
    have h3 : (1 : ℚ) / 2 ^ 34 < 1 / 2 ^ 30 := by norm_num
    refine lt_of_le_of_lt h1 (lt_of_le_of_lt (add_le_add herr h) ?_)
    norm_num

/-- 2^33 seconds (272 years) in microseconds. -/
def span : Int := 2 ^ 33 * 1000000

theorem total_seconds_val {d : Int} (h : |d| < span) :
    ∃ x, floatVal (totalSeconds d) = some x ∧ |x * 1000000 - d| ≤ 1 / 2 - 1 / 2 ^ 30 ∧ |x - (d : ℚ) / 1000000| ≤ 1 / 2 ^ 21 := by
  have hq : |(d : ℚ) / 1000000| < 2 ^ (33 : Int) := by
    rw [abs_div, abs_of_pos (by norm_num : (0 : ℚ) < 1000000), div_lt_iff₀ (by norm_num)]
    have : ((|d| : Int) : ℚ) < ((span : Int) : ℚ) := by exact_mod_cast h
    unfold span at this
    have e : (2 : ℚ) ^ (33 : Int) * 1000000 = ((2 ^ 33 * 1000000 : Int) : ℚ) := by norm_num
    rw [e, ← Int.cast_abs]
    exact this
  obtain ⟨x, hx, herr⟩ := ofRat_error _ 33 (by norm_num) (by norm_num) hq
  have h2 : (2 : ℚ) ^ ((33 : Int) - 54) = 1 / 2 ^ 21 := by norm_num
  rw [h2] at herr
  refine ⟨x, hx, ?_, herr⟩
  have e : x * 1000000 - d = (x - (d : ℚ) / 1000000) * 1000000 := by ring
  rw [e, abs_mul, abs_of_pos (by norm_num : (0 : ℚ) < 1000000)]
  have : (1 : ℚ) / 2 ^ 21 * 1000000 ≤ 1 / 2 - 1 / 2 ^ 30 := by norm_num
  nlinarith

theorem floatVal_fin {f : PyFloat} {x : ℚ} (h : floatVal f = some x) : ∃ n k, f = .fin n k ∧ x = mkRat n (2 ^ k) := by
  cases f with
  | fin n k => simp only [floatVal, Option.some.injEq] at h; exact ⟨n, k, rfl, h.symm⟩
  | inf b => cases h
  | nan => cases h

/-- `timedelta(seconds=d.total_seconds()) == d` within 2^33 seconds. -/
theorem delta_round_trip {d : Int} (h : |d| < span) : deltaOfFloat 1000000 (totalSeconds d) = .val d := by
  obtain ⟨x, hx, herr, -⟩ := total_seconds_val h
  obtain ⟨n, k, hf, hxe⟩ := floatVal_fin hx
  rw [hf]
  simp only [deltaOfFloat]
  rw [← hxe, deltaUs_near herr]
  simp only
  rw [if_pos]
  have := abs_lt.1 h
  unfold span at this
  unfold maxDelta dayUs
  omega

theorem fromTimestamp_total {d : Int} (h : |d| < span) (u : DateTime) (hu : ofUs (epochUs + d) (some 0) = some u) :
    fromTimestamp (totalSeconds d) = .val u := by
  rw [fromTimestamp, delta_round_trip h]
  simp only [utcAt, hu]

theorem in_calendar {d : Int} (h : |d| < span) : ∃ u, ofUs (epochUs + d) (some 0) = some u := by
  rw [ofUs, if_pos]
  · exact ⟨_, rfl⟩
  · have := abs_lt.1 h
    unfold span at this
    unfold epochUs dayUs maxOrdinal
    omega

/-- **C54.**  For every datetime with a real offset whose instant lies within 2^33 seconds of the epoch (years 1698-2242): the exported
timestamp, a double, is read back as the same instant to the microsecond, in UTC. -/
theorem C54_timestamp_round_trip (t : DateTime) (o : Int) (hz : t.tz = some o) (ho : o.natAbs < 86400)
    (h : |t.instant - epochUs| < span) (eapp iapp : Val) :
    ∃ f u, (timestampType false).toPrimitive eapp (.datetime t) = .ok (.flt f) ∧
      (timestampType false).toNative iapp (.flt f) = .ok (.datetime u) ∧ u.instant = t.instant ∧ u.tz = some 0 := by
  obtain ⟨u, hu⟩ := in_calendar h
  have he : epochUs + (t.instant - epochUs) = t.instant := by omega
  have hu' := ofUs_spec hu
  rw [he] at hu'
  refine ⟨totalSeconds (t.instant - epochUs), u, ?_, ?_, ?_, hu'.2.2⟩
  · show tsPrimitive (.datetime t) = _
    simp only [tsPrimitive, toUTC, hz]
    rw [if_pos ho]
    rw [he] at hu
    rw [hu]
    simp only [hu'.1]
  · have e : ∀ v, (timestampType false).toNative iapp v = dtNative (tsCfg false) v := fun _ => rfl
    rw [e]
    have e2 : (tsCfg false).parse = none := rfl
    simp only [dtNative, dtParse, e2, builtinParse, callFloat, fromTimestamp_total h u hu, TD.result]
    rw [convParsed_keeps hu'.2.1 .none (policy_valid ?_ _) (fun _ => by rw [hu'.2.2]; simp)]
    · rfl
    · rw [hu'.2.2]
      refine ⟨by decide, by decide, by decide, ?_⟩
      rintro - o ⟨⟩; rfl
  · simp [DateTime.instant, hu'.2.2, hu'.1]

theorem dtNative_flt {c : DTCfg} {f : PyFloat} {u : DateTime} (hc : c.parse = none) (h : fromTimestamp f = .val u) :
    dtNative c (.flt f) = toVal (convParsed c u) := by
  simp only [dtNative, dtParse, hc, builtinParse, callFloat, h, TD.result]

/-- **C54**: a UTC datetime is read back as itself, and so is a naive one if the field drops zones. -/
theorem C54_timestamp_identity (drop : Bool) (t : DateTime) (ht : DateTimeOk t) (hz : t.tz = if drop then none else some 0)
    (h : |t.localUs - epochUs| < span) (eapp iapp : Val) :
    ∃ f, (timestampType drop).toPrimitive eapp (.datetime t) = .ok (.flt f) ∧
      (timestampType drop).toNative iapp (.flt f) = .ok (.datetime t) := by
  refine ⟨totalSeconds (t.localUs - epochUs), ?_, ?_⟩
  · show tsPrimitive (.datetime t) = _
    cases drop with
    | true => simp only [if_true] at hz; simp only [tsPrimitive, toUTC, hz]
    | false => simp only [Bool.false_eq_true, if_false] at hz; simp only [tsPrimitive, toUTC_zero ht hz]
  · have e : ∀ v, (timestampType drop).toNative iapp v = dtNative (tsCfg drop) v := fun _ => rfl
    rw [e]
    have e2 : (tsCfg drop).parse = none := rfl
    have hok : DateTimeOk { t with tz := some 0 } := ht
    have he : epochUs + (t.localUs - epochUs) = t.localUs := by omega
    have hu : ofUs (epochUs + (t.localUs - epochUs)) (some 0) = some { t with tz := some 0 } := by
      have hl : ({ t with tz := some 0 } : DateTime).localUs = t.localUs := by simp only [DateTime.localUs]
      have h1 := ofUs_localUs _ hok
      rw [hl] at h1
      rw [he]
      exact h1
    rw [dtNative_flt e2 (fromTimestamp_total h _ hu)]
    have hzd : zoned (tsCfg drop) { t with tz := some 0 } = .ok t := by
      rw [zoned_utc (c := tsCfg drop) (by simp [tsCfg]) rfl (toUTC_zero hok rfl)]
      show Except.ok (dropTz drop _) = _
      cases drop with
      | true => simp only [dropTz, if_true] at *; rw [← hz]
      | false => simp only [dropTz, Bool.false_eq_true, if_false] at *; rw [← hz]
    rw [convParsed_zoned (o := 0) rfl, hzd]
    rfl

/-- **C54.**  The exported number is the number of seconds since the epoch to within half a microsecond. -/
theorem C54_exports_seconds (t : DateTime) (o : Int) (hz : t.tz = some o) (ho : o.natAbs < 86400) (h : |t.instant - epochUs| < span)
    (eapp : Val) : ∃ f x, (timestampType false).toPrimitive eapp (.datetime t) = .ok (.flt f) ∧ floatVal f = some x ∧
      |x * 1000000 - ((t.instant - epochUs : Int) : ℚ)| < 1 / 2 := by
  obtain ⟨f, u, h1, -⟩ := C54_timestamp_round_trip t o hz ho h eapp .none
  obtain ⟨u', hu⟩ := in_calendar h
  have he : epochUs + (t.instant - epochUs) = t.instant := by omega
  rw [he] at hu
  obtain ⟨x, hx, herr, -⟩ := total_seconds_val h
  refine ⟨totalSeconds (t.instant - epochUs), x, ?_, hx, ?_⟩
  · show tsPrimitive (.datetime t) = _
    simp only [tsPrimitive, toUTC, hz]
    rw [if_pos ho, hu]
    simp only [(ofUs_spec hu).1]
  · have : (0 : ℚ) < 1 / 2 ^ 30 := by norm_num
    linarith

/-- **C54, what fails.**  Just outside that range a double cannot hold the microseconds: the first microsecond of 2250 comes back as the
second one, and the timestamp of the last microsecond of the calendar overflows. -/
theorem C54_counterexample_far_future :
    fromTimestamp (totalSeconds ((⟨⟨2250, 1, 1⟩, 0, 0, 0, 1, some 0⟩ : DateTime).localUs - epochUs)) =
      .val ⟨⟨2250, 1, 1⟩, 0, 0, 0, 2, some 0⟩ ∧
    fromTimestamp (totalSeconds ((⟨⟨9999, 12, 31⟩, 23, 59, 59, 999999, some 0⟩ : DateTime).localUs - epochUs)) = .overflow := by
  decide +kernel

/-! ## C55: timedeltas -/

theorem floatVal_ofInt {n : Int} (h : n.natAbs < 2 ^ 53) : ∃ m k, ofRat (n : ℚ) = .fin m k ∧ mkRat m (2 ^ k) = (n : ℚ) := by
  have := ofRat_int n h
  obtain ⟨m, k, h1, h2⟩ := floatVal_fin this
  exact ⟨m, k, h1, h2.symm⟩

theorem deltaUs_int (factor : Nat) (n : Int) : deltaUs factor (n : ℚ) = some (n * factor) := by
  unfold deltaUs
  rw [trunc_int]
  simp only [sub_self, mul_zero]
  show some (rhe ((n * factor) * ((0 : ℚ).den : Int) + (0 : ℚ).num) (0 : ℚ).den) = _
  congr 1
  have := rhe_exact (n * factor) 1 (by norm_num)
  simpa using this

/-- What `TimedeltaType` makes of a whole number. -/
theorem tdNative_int (u : Unit') (n : Int) (h : n.natAbs < 2 ^ 53) (hr : -maxDelta < n * u.us ∧ n * u.us < maxDelta) :
    tdNative u (.int n) = .ok (.timedelta (n * u.us)) := by
  obtain ⟨m, k, h1, h2⟩ := floatVal_ofInt h
  simp only [tdNative, callFloat, floatOfInt, h1, deltaOfFloat, h2, deltaUs_int]
  rw [if_pos hr]

/-- Units of at least a second. -/
def Whole (u : Unit') : Prop := u = .seconds ∨ u = .minutes ∨ u = .hours ∨ u = .days ∨ u = .weeks

/-- Seconds of a unit. -/
def Unit'.secs (u : Unit') : Nat := u.us / 1000000

theorem whole_us {u : Unit'} (h : Whole u) : u.us = u.secs * 1000000 ∧ 1 ≤ u.secs ∧ u.secs ≤ 604800 := by
  rcases h with rfl | rfl | rfl | rfl | rfl <;> decide

theorem total_int (n : Int) (h : n.natAbs < 2 ^ 53) : floatVal (totalSeconds (n * 1000000)) = some (n : ℚ) := by
  unfold totalSeconds
  rw [show (((n * 1000000 : Int) : ℚ) / 1000000) = (n : ℚ) by push_cast; field_simp]
  exact ofRat_int n h

/-- **C55.**  For the precisions from seconds up: a whole number `n` of units, within the range of `timedelta`, is stored as exactly `n` units
and exported as `n`. -/
theorem C55_whole_units (u : Unit') (hu : Whole u) (n : Int) (hr : -maxDelta < n * u.us ∧ n * u.us < maxDelta) (eapp iapp : Val) :
    (timedeltaType u).toNative iapp (.int n) = .ok (.timedelta (n * u.us)) ∧
    (timedeltaType u).toPrimitive eapp (.timedelta (n * u.us)) = .ok (.int n) := by
  obtain ⟨h1, h2, h3⟩ := whole_us hu
  have hn : n.natAbs < 2 ^ 53 ∧ (n * u.secs).natAbs < 2 ^ 53 := by
    unfold maxDelta dayUs at hr
    rw [h1] at hr
    push_cast at hr
    have e : n * ((u.secs : Int) * 1000000) = n * u.secs * 1000000 := by ring
    rw [e] at hr
    have h4 : (n * u.secs).natAbs < 2 ^ 53 := by generalize n * (u.secs : Int) = m at *; omega
    refine ⟨lt_of_le_of_lt ?_ h4, h4⟩
    rw [Int.natAbs_mul]
    exact Nat.le_mul_of_pos_right _ (by simp; omega)
  refine ⟨tdNative_int u n hn.1 hr, ?_⟩
  have e : ∀ v, (timedeltaType u).toPrimitive eapp v = tdPrimitive u v := fun _ => rfl
  rw [e]
  simp only [tdPrimitive]
  congr 2
  have e1 : floatVal (totalSeconds (n * u.us)) = some ((n * u.secs : Int) : ℚ) := by
    rw [h1, show n * ((u.secs * 1000000 : Nat) : Int) = n * u.secs * 1000000 by push_cast; ring]
    exact total_int _ hn.2
  have e2 : floatVal (totalSeconds u.us) = some ((u.secs : Int) : ℚ) := by
    rw [h1, show ((u.secs * 1000000 : Nat) : Int) = (u.secs : Int) * 1000000 by push_cast; ring]
    exact total_int _ (by simp; omega)
  simp only [divFloat, e1, e2, intOfFloat]
  rw [show (((n * u.secs : Int) : ℚ) / ((u.secs : Int) : ℚ)) = (n : ℚ) by
    have : ((u.secs : Int) : ℚ) ≠ 0 := by
      have : (u.secs : Int) ≠ 0 := by omega
      exact_mod_cast this
    push_cast at *
    field_simp]
  rw [ofRat_int n hn.1]
  exact trunc_int n

/-- Outside the range of `timedelta` the import raises `OverflowError`, which is not a `ConversionError` (see C67). -/
theorem C55_out_of_range (u : Unit') (n : Int) (h : n.natAbs < 2 ^ 53) (hr : ¬ (-maxDelta < n * u.us ∧ n * u.us < maxDelta)) (iapp : Val) :
    (timedeltaType u).toNative iapp (.int n) = .error (.other "OverflowError") := by
  obtain ⟨m, k, h1, h2⟩ := floatVal_ofInt h
  show tdNative u (.int n) = _
  simp only [tdNative, callFloat, floatOfInt, h1, deltaOfFloat, h2, deltaUs_int]
  rw [if_neg hr]

/-- **C55.**  Exporting seconds truncates toward zero, within 2^33 seconds: the exported number is the whole number of seconds. -/
theorem C55_seconds_truncate (us : Int) (h : |us| < span) (eapp : Val) :
    (timedeltaType .seconds).toPrimitive eapp (.timedelta us) = .ok (.int (us.tdiv 1000000)) := by
  obtain ⟨x, hx, -, herr⟩ := total_seconds_val h
  have e : ∀ v, (timedeltaType .seconds).toPrimitive eapp v = tdPrimitive .seconds v := fun _ => rfl
  rw [e]
  simp only [tdPrimitive]
  congr 2
  have e2 : floatVal (totalSeconds (Unit'.us .seconds)) = some (1 : ℚ) := by
    have := total_int 1 (by norm_num)
    simpa [Unit'.us] using this
  simp only [divFloat, hx, e2, intOfFloat, div_one]
  rw [ofRat_idem hx]
  simp only
  -- the double and the exact quotient have the same whole part
  have hT := Int.tdiv_mul_add_tmod us 1000000
  by_cases hus : 0 ≤ us
  · have hm0 := Int.tmod_nonneg 1000000 hus
    have hm1 := Int.tmod_lt_of_pos us (by norm_num : (0 : Int) < 1000000)
    generalize us.tdiv 1000000 = a at *
    generalize us.tmod 1000000 = b at *
    have ha : 0 ≤ a := by omega
    by_cases hb : b = 0
    · have hxa : x = a := by
        subst hb
        have := total_int a (by have := abs_lt.1 h; unfold span at this; omega)
        rw [show a * 1000000 = us by omega, hx] at this
        simpa using this
      rw [hxa, trunc_int]
    · have hq : (us : ℚ) / 1000000 = a + b / 1000000 := by
        rw [← hT]; push_cast; field_simp
      rw [hq] at herr
      have hb1 : (1 : ℚ) ≤ b := by exact_mod_cast (by omega : (1 : Int) ≤ b)
      have hb2 : (b : ℚ) ≤ 999999 := by exact_mod_cast (by omega : b ≤ (999999 : Int))
      have ha' : (0 : ℚ) ≤ a := by exact_mod_cast ha
      have h3 := abs_le.1 herr
      have h4 : (1 : ℚ) / 2 ^ 21 < 1 / 1000000 := by norm_num
      refine trunc_of_nonneg ?_ ?_ ?_ <;> linarith
  · have hus' : us ≤ 0 := by omega
    have hm0 : us.tmod 1000000 ≤ 0 ∧ -1000000 < us.tmod 1000000 := by
      have h1 := Int.tmod_nonneg 1000000 (show 0 ≤ -us by omega)
      have h2 := Int.tmod_lt_of_pos (-us) (by norm_num : (0 : Int) < 1000000)
      rw [Int.neg_tmod] at h1 h2
      omega
    generalize us.tdiv 1000000 = a at *
    generalize us.tmod 1000000 = b at *
    have ha : a ≤ 0 := by omega
    by_cases hb : b = 0
    · have hxa : x = a := by
        subst hb
        have := total_int a (by have := abs_lt.1 h; unfold span at this; omega)
        rw [show a * 1000000 = us by omega, hx] at this
        simpa using this
      rw [hxa, trunc_int]
    · have hq : (us : ℚ) / 1000000 = a + b / 1000000 := by
        rw [← hT]; push_cast; field_simp
      rw [hq] at herr
      have hb1 : (b : ℚ) ≤ -1 := by exact_mod_cast (by omega : b ≤ (-1 : Int))
      have hb2 : (-999999 : ℚ) ≤ b := by exact_mod_cast (by omega : (-999999 : Int) ≤ b)
      have ha' : (a : ℚ) ≤ 0 := by exact_mod_cast ha
      have h3 := abs_le.1 herr
      have h4 : (1 : ℚ) / 2 ^ 21 < 1 / 1000000 := by norm_num
      refine trunc_of_nonpos ?_ ?_ ?_ <;> linarith

/-- **C55, what fails.**  Milliseconds and microseconds go through doubles that are not exact: 43 ms are exported as 42, 493 µs as 492. -/
theorem C55_counterexample_subsecond :
    tdNative .milliseconds (.int 43) = .ok (.timedelta 43000) ∧
    intOfFloat (divFloat (totalSeconds 43000) (totalSeconds (Unit'.us .milliseconds))) = 42 ∧
    tdNative .microseconds (.int 493) = .ok (.timedelta 493) ∧
    intOfFloat (divFloat (totalSeconds 493) (totalSeconds (Unit'.us .microseconds))) = 492 := by
  refine ⟨tdNative_int _ 43 (by norm_num) (by decide), by decide +kernel, ?_, by decide +kernel⟩
  exact tdNative_int .microseconds 493 (by norm_num) (by decide)

/-- How far milliseconds and microseconds can be off. -/
theorem quotient_near (n : Int) (us : Nat) (hn0 : n ≠ 0) (hn : n.natAbs < 2 ^ 40) (hu1 : 1 ≤ us) (hu2 : us ≤ 1000000) :
    ∃ y, floatVal (divFloat (totalSeconds (n * us)) (totalSeconds us)) = some y ∧ |y - n| < 1 / 2 := by
  have hus1 : (1 : ℚ) ≤ us := by exact_mod_cast hu1
  have hus2 : (us : ℚ) ≤ 1000000 := by exact_mod_cast hu2
  have hn1 : (1 : ℚ) ≤ |(n : ℚ)| := by
    have : 1 ≤ |n| := Int.one_le_abs hn0
    exact_mod_cast this
  have hn2 : |(n : ℚ)| < 2 ^ 40 := by
    have : ((n.natAbs : ℚ)) < 2 ^ 40 := by exact_mod_cast hn
    rw [Nat.cast_natAbs] at this; push_cast at this; exact this
  have lo : (2 : ℚ) ^ (-1000 : Int) ≤ 1 / 2 ^ 20 := by
    rw [show (1 : ℚ) / 2 ^ 20 = 2 ^ (-20 : Int) by norm_num]; exact zpow_le_zpow_right₀ (by norm_num) (by norm_num)
  have hi : (2 : ℚ) ^ 61 ≤ 2 ^ (1000 : Int) := by
    rw [← zpow_natCast]; exact zpow_le_zpow_right₀ (by norm_num) (by norm_num)
  have hrel : ∀ q : ℚ, 1 / 2 ^ 20 ≤ |q| → |q| < 2 ^ 61 → ∃ x, floatVal (ofRat q) = some x ∧ |x - q| * 2 ^ 53 ≤ |q| :=
    fun q h1 h2 => ofRat_rel q (le_trans lo h1) (lt_of_lt_of_le h2 hi)
  have hc1 : (1 : ℚ) / 2 ^ 20 ≤ (us : ℚ) / 1000000 := by
    rw [div_le_div_iff₀ (by norm_num) (by norm_num)]; linarith
  have hc2 : (us : ℚ) / 1000000 ≤ 1 := by rw [div_le_one (by norm_num)]; exact hus2
  have hts : totalSeconds us = ofRat ((us : ℚ) / 1000000) := by unfold totalSeconds; push_cast; rfl
  have htq : totalSeconds (n * us) = ofRat (n * ((us : ℚ) / 1000000)) := by
    unfold totalSeconds; push_cast; rw [mul_div_assoc]
  rw [hts, htq]
  generalize (us : ℚ) / 1000000 = c at *
  have hc0 : 0 < c := lt_of_lt_of_le (by norm_num) hc1
  obtain ⟨b, hb, hbe⟩ := hrel c (by rw [abs_of_pos hc0]; exact hc1) (by rw [abs_of_pos hc0]; linarith)
  have hqa : |(n : ℚ) * c| = |(n : ℚ)| * c := by rw [abs_mul, abs_of_pos hc0]
  obtain ⟨x, hx, hxe⟩ := hrel (n * c) (by rw [hqa]; nlinarith) (by rw [hqa]; nlinarith)
  rw [abs_of_pos hc0] at hbe
  rw [hqa] at hxe
  have hb1 : c / 2 ≤ b := by
    have := (abs_le.1 (show |b - c| ≤ c / 2 by linarith)).1
    linarith
  have hb0 : 0 < b := by linarith
  have hr : |x / b - n| ≤ 1 / 2 ^ 11 := by
    have e : x / b - n = ((x - n * c) + n * (c - b)) / b := by field_simp; ring
    rw [e, abs_div, abs_of_pos hb0, div_le_iff₀ hb0]
    have h1 := abs_add_le (x - n * c) (n * (c - b))
    rw [abs_mul (n : ℚ) (c - b), abs_sub_comm c b] at h1
    have h2 : |(n : ℚ)| * (|b - c| * 2 ^ 53) ≤ |(n : ℚ)| * c := by
      apply mul_le_mul_of_nonneg_left hbe (abs_nonneg _)
    have h3 : |(n : ℚ)| * c ≤ 2 ^ 40 * c := by nlinarith
    nlinarith
  have hr1 := abs_sub_abs_le_abs_sub (x / b) (n : ℚ)
  have hr2 := abs_sub_abs_le_abs_sub (n : ℚ) (x / b)
  rw [abs_sub_comm (n : ℚ)] at hr2
  obtain ⟨y, hy, hye⟩ := hrel (x / b) (by linarith) (by linarith)
  refine ⟨y, by simp only [divFloat, hx, hb]; exact hy, ?_⟩
  have h5 := abs_add_le (y - x / b) (x / b - n)
  rw [show y - x / b + (x / b - n) = y - n by ring] at h5
  linarith

/-- Truncating a number near an integer. -/
theorem trunc_near {y : ℚ} {n : Int} (h : |y - n| < 1 / 2) (h0 : n ≠ 0) : trunc y = n ∨ trunc y = n - n.sign := by
  have h1 := abs_lt.1 h
  rcases lt_or_gt_of_ne h0 with hneg | hpos
  · have hn : (n : ℚ) ≤ -1 := by exact_mod_cast (by omega : n ≤ -1)
    rw [Int.sign_eq_neg_one_of_neg hneg]
    by_cases hy : y ≤ n
    · exact Or.inl (trunc_of_nonpos (by linarith) hy (by linarith))
    · exact Or.inr (trunc_of_nonpos (by linarith) (by push_cast; linarith) (by push_cast; linarith))
  · have hn : (1 : ℚ) ≤ n := by exact_mod_cast (by omega : 1 ≤ n)
    rw [Int.sign_eq_one_of_pos hpos]
    by_cases hy : (n : ℚ) ≤ y
    · exact Or.inl (trunc_of_nonneg (by linarith) hy (by linarith))
    · exact Or.inr (trunc_of_nonneg (by linarith) (by push_cast; linarith) (by push_cast; linarith))

/-- **C55** for the precisions below a second: a whole number of milliseconds or microseconds (below 2^40) is stored exactly, and exported
either as the same number or as the next one toward zero.  It is not always the same number: see `C55_counterexample_subsecond`. -/
theorem C55_subsecond (u : Unit') (hu : u = .milliseconds ∨ u = .microseconds) (n : Int) (hn : n.natAbs < 2 ^ 40) (eapp iapp : Val) :
    (timedeltaType u).toNative iapp (.int n) = .ok (.timedelta (n * u.us)) ∧
    ∃ m, (timedeltaType u).toPrimitive eapp (.timedelta (n * u.us)) = .ok (.int m) ∧ (m = n ∨ m = n - n.sign) := by
  have hus : 1 ≤ u.us ∧ u.us ≤ 1000 := by rcases hu with rfl | rfl <;> decide
  refine ⟨tdNative_int u n (by omega) ?_, intOfFloat (divFloat (totalSeconds (n * u.us)) (totalSeconds u.us)), rfl, ?_⟩
  · unfold maxDelta dayUs
    rcases hu with rfl | rfl <;> simp only [Unit'.us] <;> omega
  · by_cases h0 : n = 0
    · subst h0
      left
      rcases hu with rfl | rfl <;> decide +kernel
    · obtain ⟨y, hy, hn'⟩ := quotient_near n u.us h0 hn hus.1 (by omega)
      simp only [intOfFloat, hy]
      exact trunc_near hn' h0

/-! ## The hypotheses are met -/

/-- 2024-02-29T23:59:59.999999-03:30 lies within the span. -/
example : |sampleDT.instant - epochUs| < span := by decide +kernel

/-- Ten thousand weeks are a timedelta. -/
example : -maxDelta < (10000 : Int) * Unit'.us .weeks ∧ (10000 : Int) * Unit'.us .weeks < maxDelta := by decide

end Verif.Types
