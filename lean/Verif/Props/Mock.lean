import Verif.Types.Mock
import Verif.Props.Net
import Verif.Props.Misc
import Verif.Props.Text
import Verif.Props.DateTime
import Verif.Props.Date
import Verif.Props.Number
import Mathlib.Tactic.Linarith
import Mathlib.Algebra.Order.Floor.Ring
import Mathlib.Data.Rat.Floor

/-!
# C73: mock values satisfy their own field
-/
namespace Verif.Types.Mock
open Verif.Py Verif.Types

/-- A value that a field accepts: it converts to itself, and passes the validators. -/
def Accepted (f : Leaf) (v : Val) : Prop := ∀ app, f.toNative app v = .ok v ∧ ∀ w ∈ f.validators, w app v = .ok ()

theorem randint_mem {lo hi : Int} (h : lo ≤ hi) (x : Nat) : lo ≤ randint lo hi x ∧ randint lo hi x ≤ hi := by
  unfold randint
  have h1 := Int.emod_nonneg (x : Int) (b := hi - lo + 1) (by omega)
  have h2 := Int.emod_lt_of_pos (x : Int) (b := hi - lo + 1) (by omega)
  omega

/-- Every number between the bounds is a possible outcome, so a statement about every tape is not vacuous. -/
theorem randint_onto {lo hi n : Int} (h1 : lo ≤ n) (h2 : n ≤ hi) : ∃ x, randint lo hi x = n := by
  refine ⟨(n - lo).toNat, ?_⟩
  unfold randint
  rw [Int.toNat_of_nonneg (by omega), Int.emod_eq_of_lt (by omega) (by omega)]
  omega

theorem endpoints_eq (min max : Option Int) (padding required : Int) :
    endpoints min max padding required =
      if max.getD (Max.max (min.getD 0 * 2) 16) - padding < Max.max (if padding = 0 then min.getD 0 else Max.max (min.getD 0 - padding) 0) required then none
      else some (Max.max (if padding = 0 then min.getD 0 else Max.max (min.getD 0 - padding) 0) required, max.getD (Max.max (min.getD 0 * 2) 16) - padding) := by
  simp only [endpoints]
  generalize max.getD (Max.max (min.getD 0 * 2) 16) = hi
  generalize min.getD 0 = lo
  by_cases hp : padding = 0
  · subst hp
    simp only [ne_eq, not_true_eq_false, if_false, if_true, Int.sub_zero]
    by_cases h1 : hi < required
    · have h2 : hi < Max.max lo required := by omega
      rw [if_pos h1, if_pos h2]
    · rw [if_neg h1]
  · simp only [ne_eq, hp, not_false_eq_true, if_true, if_false]
    by_cases h1 : hi - padding < required
    · have h2 : hi - padding < Max.max (Max.max (lo - padding) 0) required := by omega
      rw [if_pos h1, if_pos h2]
    · rw [if_neg h1]

/-- **C73, range**: for bounds of which the smaller is not negative, the generator picks `n` with `required <= n` and
`min <= n + padding <= max`; it refuses iff there is no such `n`, where a missing maximum counts as `max(2 * min, 16)`. -/
theorem C73_range (min max : Option Int) (padding required : Int) (hr : 0 ≤ required) :
    (∀ x n, valueIn min max padding required x = some n → required ≤ n ∧ (∀ m, min = some m → m ≤ n + padding) ∧ (∀ m, max = some m → n + padding ≤ m)) ∧
    ((∃ x, valueIn min max padding required x = none) ↔ ¬ ∃ n, required ≤ n ∧ min.getD 0 ≤ n + padding ∧ n + padding ≤ max.getD (Max.max (min.getD 0 * 2) 16)) := by
  have he := endpoints_eq min max padding required
  have hmax : ∀ m, max = some m → max.getD (Max.max (min.getD 0 * 2) 16) = m := by rintro m rfl; rfl
  have hmin : ∀ m, min = some m → min.getD 0 = m := by rintro m rfl; rfl
  generalize max.getD (Max.max (min.getD 0 * 2) 16) = hi at *
  generalize min.getD 0 = lo at *
  have key : ∀ p, endpoints min max padding required = some p → p.1 ≤ p.2 ∧ required ≤ p.1 ∧ lo ≤ p.1 + padding ∧ p.2 + padding ≤ hi := by
    intro p h
    rw [he] at h
    by_cases hp0 : padding = 0
    · simp only [hp0, if_true] at h
      by_cases hc : hi - 0 < Max.max lo required
      · rw [if_pos hc] at h; cases h
      · rw [if_neg hc] at h; cases h; simp only; omega
    · simp only [hp0, if_false] at h
      by_cases hc : hi - padding < Max.max (Max.max (lo - padding) 0) required
      · rw [if_pos hc] at h; cases h
      · rw [if_neg hc] at h; cases h; simp only; omega
  have key2 : endpoints min max padding required = none ↔ ¬ ∃ n, required ≤ n ∧ lo ≤ n + padding ∧ n + padding ≤ hi := by
    constructor
    · intro h
      rintro ⟨n, h1, h2, h3⟩
      rw [he] at h
      by_cases hp0 : padding = 0
      · simp only [hp0, if_true] at h
        by_cases hc : hi - 0 < Max.max lo required
        · omega
        · rw [if_neg hc] at h; cases h
      · simp only [hp0, if_false] at h
        by_cases hc : hi - padding < Max.max (Max.max (lo - padding) 0) required
        · omega
        · rw [if_neg hc] at h; cases h
    · intro h
      by_contra hne
      apply h
      cases he : endpoints min max padding required with
      | none => exact absurd he hne
      | some p =>
        obtain ⟨h1, h2, h3, h4⟩ := key p he
        exact ⟨p.1, h2, h3, by omega⟩
  constructor
  · intro x n h
    unfold valueIn at h
    cases he : endpoints min max padding required with
    | none => rw [he] at h; cases h
    | some p =>
      rw [he] at h
      cases h
      obtain ⟨h1, h2, h3, h4⟩ := key p he
      obtain ⟨h5, h6⟩ := randint_mem h1 x
      simp only []
      refine ⟨by omega, ?_, ?_⟩
      · intro m hm; have := hmin m hm; omega
      · intro m hm; have := hmax m hm; omega
  · rw [← key2]
    unfold valueIn
    cases endpoints min max padding required <;> simp

theorem randomString_length (chars : List Char) (n : Nat) (r : Tape) (i : Nat) : (randomString chars n r i).length = n := by simp [randomString]

theorem randomString_mem {chars : List Char} (hc : chars ≠ []) {n : Nat} {r : Tape} {i : Nat} {c : Char} (h : c ∈ randomString chars n r i) : c ∈ chars := by
  unfold randomString at h
  obtain ⟨j, -, rfl⟩ := List.mem_map.1 h
  have hl : 0 < chars.length := List.length_pos_iff.2 hc
  have := Nat.mod_lt (r (i + j)) hl
  rw [List.getD_eq_getElem?_getD, List.getElem?_eq_getElem this]
  exact List.getElem_mem _

theorem accepted_string (max min : Option Nat) (s : String) (h1 : ∀ m, max = some m → s.length ≤ m) (h2 : ∀ m, min = some m → m ≤ s.length) :
    Accepted (stringType none max min) (.str s) := by
  intro app
  refine ⟨rfl, ?_⟩
  simp only [stringType, List.mem_cons, List.not_mem_nil, or_false, forall_eq_or_imp, forall_eq]
  exact ⟨(C48_string_length max min app s).2 ⟨h1, h2⟩, rfl⟩

/-- **C73, strings**: for every random outcome a mocked `StringType` without pattern is accepted by its own field; the mock is refused only
if the bounds exclude each other. -/
theorem C73_string (max min : Option Nat) (r : Tape) :
    (∀ v, string max min r = some v → Accepted (stringType none max min) v) ∧
    (string max min r = none ↔ ∃ a b, min = some a ∧ max = some b ∧ b < a) := by
  have hr := C73_range (lift min) (lift max) 0 0 (by omega)
  constructor
  · intro v h
    unfold string at h
    cases hn : valueIn (lift min) (lift max) 0 0 (r 0) with
    | none => rw [hn] at h; cases h
    | some n =>
      rw [hn] at h
      cases h
      obtain ⟨h0, h1, h2⟩ := hr.1 _ _ hn
      have hl : (String.ofList (randomString alphanumeric n.toNat r 1)).length = n.toNat := by simp [randomString_length]
      refine accepted_string max min _ ?_ ?_
      · rintro m rfl
        have := h2 m rfl
        rw [hl]; omega
      · rintro m rfl
        have := h1 m rfl
        rw [hl]; omega
  · have : (string max min r = none) ↔ ∃ x, valueIn (lift min) (lift max) 0 0 x = none := by
      unfold string valueIn
      cases endpoints (lift min) (lift max) 0 0 <;> simp
    rw [this, hr.2]
    constructor
    · intro h
      cases min with
      | none =>
        exfalso; apply h
        cases max with
        | none => exact ⟨0, by simp [lift]⟩
        | some b => exact ⟨0, by simp [lift]⟩
      | some a =>
        cases max with
        | none => exfalso; apply h; exact ⟨a, by simp [lift]; omega⟩
        | some b =>
          refine ⟨a, b, rfl, rfl, ?_⟩
          by_contra hab
          exact h ⟨a, by simp [lift]; omega⟩
    · rintro ⟨a, b, rfl, rfl, hab⟩ ⟨n, h0, h1, h2⟩
      simp [lift] at h1 h2
      omega

/-- **C73, templates** (e-mail addresses and URLs): the length of the whole text respects the bounds, and the mock is refused only if the maximum
is below the minimum or has no room for the fixed part and one character. -/
theorem C73_template (pre post : List Char) (hlen : pre.length + post.length ≤ 15) (max min : Option Nat) (r : Tape) :
    (∀ v, template pre post max min r = some v → ∃ w, w ≠ [] ∧ (∀ c ∈ w, c ∈ alphanumeric) ∧ v = .str (String.ofList (pre ++ w ++ post)) ∧
      Accepted (stringType none max min) v) ∧
    (template pre post max min r = none ↔ ∃ b, max = some b ∧ (b < pre.length + post.length + 1 ∨ ∃ a, min = some a ∧ b < a)) := by
  have hr := C73_range (lift min) (lift max) ((pre.length + post.length : Nat) : Int) 1 (by omega)
  constructor
  · intro v h
    unfold template at h
    cases hn : valueIn (lift min) (lift max) ((pre.length + post.length : Nat) : Int) 1 (r 0) with
    | none => rw [hn] at h; cases h
    | some n =>
      rw [hn] at h
      cases h
      obtain ⟨h0, h1, h2⟩ := hr.1 _ _ hn
      have hl : (String.ofList (pre ++ randomString alphanumeric n.toNat r 1 ++ post)).length = pre.length + n.toNat + post.length := by
        simp [randomString_length]; omega
      refine ⟨_, ?_, fun c hc => randomString_mem (by decide) hc, rfl, accepted_string max min _ ?_ ?_⟩
      · intro e
        have := congrArg List.length e
        rw [randomString_length] at this
        simp at this
        omega
      · rintro m rfl
        have := h2 m rfl
        rw [hl]; push_cast at this; omega
      · rintro m rfl
        have := h1 m rfl
        rw [hl]; push_cast at this; omega
  · have : (template pre post max min r = none) ↔ ∃ x, valueIn (lift min) (lift max) ((pre.length + post.length : Nat) : Int) 1 x = none := by
      unfold template valueIn
      cases endpoints (lift min) (lift max) ((pre.length + post.length : Nat) : Int) 1 <;> simp
    rw [this, hr.2]
    generalize hL : pre.length + post.length = L at *
    constructor
    · intro h
      cases max with
      | none =>
        exfalso; apply h
        cases min with
        | none => exact ⟨1, by simp [lift]; omega⟩
        | some a => exact ⟨Max.max ((a : Int) - L) 1, by simp [lift]; omega⟩
      | some b =>
        refine ⟨b, rfl, ?_⟩
        by_contra hb
        rw [not_or] at hb
        obtain ⟨hb1, hb2⟩ := hb
        apply h
        cases min with
        | none => exact ⟨1, by simp [lift]; omega⟩
        | some a =>
          have : ¬ b < a := fun h => hb2 ⟨a, rfl, h⟩
          exact ⟨Max.max ((a : Int) - L) 1, by simp [lift]; omega⟩
    · rintro ⟨b, rfl, hb | ⟨a, rfl, hb⟩⟩ ⟨n, h0, h1, h2⟩
      · simp [lift] at h2; omega
      · simp [lift] at h1 h2; omega

theorem hexdigits_ok : ∀ c ∈ hexdigits, IsHexDigit c := by unfold IsHexDigit; decide

/-- **C73, hashes**: for every random outcome a mocked hash is accepted by its own field. -/
theorem C73_hash (len : Nat) (hlen : 0 < len) (r : Tape) (v : Val) (h : hash len r = some v) : Accepted (hashType len) v := by
  cases h
  intro app
  have hl : (String.ofList (randomString hexdigits len r 0)).length = len := by simp [randomString_length]
  refine ⟨C57_hash_accepts len hlen app _ hl ?_, ?_⟩
  · intro c hc
    rw [String.toList_ofList] at hc
    exact hexdigits_ok c (randomString_mem (by decide) hc)
  · simp only [hashType, List.mem_cons, List.not_mem_nil, or_false, forall_eq_or_imp, forall_eq]
    exact ⟨(C48_string_length none none app _).2 ⟨by simp, by simp⟩, rfl⟩

/-- **C73, booleans, UUIDs and dates** are accepted by their own fields. -/
theorem C73_simple (r : Tape) (v : Val) (str : Val → String) :
    (boolean r = some v → Accepted booleanType v) ∧ (uuid r = some v → Accepted (uuidType str) v) ∧
    (date r = some v → Accepted (dateType []) v ∧ ∃ d, v = .date d ∧ DateOk d) := by
  refine ⟨?_, ?_, ?_⟩
  · intro h; cases h; intro app; exact ⟨rfl, by simp [booleanType]⟩
  · intro h; cases h; intro app
    refine ⟨?_, by simp [uuidType]⟩
    show uuidNative (.uuid (r 0 % 2 ^ 128)) = _
    simp only [uuidNative]
    rw [if_pos (Nat.mod_lt _ (by norm_num))]
  · intro h; cases h
    refine ⟨fun app => ⟨rfl, by simp [dateType]⟩, _, rfl, ?_⟩
    unfold dateAt DateOk randrange
    simp only []
    have h1 := Nat.mod_lt (r 0) (show 600 > 0 by omega)
    have h2 := Nat.mod_lt (r 1) (show 12 > 0 by omega)
    have h3 := Nat.mod_lt (r 2) (show 28 > 0 by omega)
    refine ⟨by omega, by omega, by omega, by omega, by omega, ?_⟩
    have hd : ∀ y, ∀ m, m < 12 → 28 ≤ daysInMonth y (m + 1) := by
      intro y m hm
      have : m = 0 ∨ m = 1 ∨ m = 2 ∨ m = 3 ∨ m = 4 ∨ m = 5 ∨ m = 6 ∨ m = 7 ∨ m = 8 ∨ m = 9 ∨ m = 10 ∨ m = 11 := by omega
      rcases this with rfl | rfl | rfl | rfl | rfl | rfl | rfl | rfl | rfl | rfl | rfl | rfl <;> simp [daysInMonth]
      split <;> omega
    have := hd (r 0 % 600 + 1900) (r 1 % 12) h2
    omega

theorem dateAt_ok (r : Tape) : DateOk (dateAt r) := by
  obtain ⟨-, d, h, hd⟩ := (C73_simple r (.date (dateAt r)) (fun _ => "")).2.2 rfl
  cases h; exact hd

/-- **C73, datetimes**: for every `tzd`, `convert_tz`, `drop_tzinfo` and every random outcome, a mocked datetime is a valid one, obeys the zone
options, and is accepted by its own field. -/
theorem C73_datetime (c : DTCfg) (r : Tape) (v : Val) (h : datetime c r = some v) :
    ∃ t, v = .datetime t ∧ DateTimeOk t ∧ Policy c t.tz ∧ Accepted (dateTimeType c) v := by
  cases h
  have hok : ∀ tz, DateTimeOk ⟨dateAt r, randrange 24 (r 3), randrange 60 (r 4), randrange 60 (r 5), randrange 1000000 (r 6), tz⟩ := by
    intro tz
    exact ⟨dateAt_ok r, Nat.mod_lt _ (by omega), Nat.mod_lt _ (by omega), Nat.mod_lt _ (by omega), Nat.mod_lt _ (by omega)⟩
  have hP : ∀ t : DateTime, Policy c t.tz → convObject c t = .ok t → Accepted (dateTimeType c) (.datetime t) := by
    intro t hp hc app
    refine ⟨?_, ?_⟩
    · show dtNative c (.datetime t) = _
      simp only [dtNative, hc, toVal]
    · simp only [dateTimeType, List.mem_cons, List.not_mem_nil, or_false, forall_eq]
      exact policy_valid hp app
  refine ⟨_, rfl, ?_⟩
  unfold datetimeAt
  simp only
  split
  · rename_i h1
    have hpol : Policy c none := by
      refine ⟨fun _ => rfl, fun _ => rfl, fun hd hru => ?_, fun _ o ho => by cases ho⟩
      rcases h1 with h1 | h1 | ⟨h1, -⟩
      · rcases hru with e | e <;> rw [h1] at e <;> cases e
      · rw [h1] at hd; cases hd
      · rcases hru with e | e <;> rw [h1] at e <;> cases e
    refine ⟨hok none, hpol, hP _ hpol ?_⟩
    simp only [convObject, Option.isNone_none, if_true, naiveObject]
    rcases h1 with h1 | h1 | ⟨h1, -⟩
    · simp [h1]
    · simp [h1]
    · simp [h1]
  · rename_i h1
    rw [not_or, not_or, not_and] at h1
    obtain ⟨h1, h2, -⟩ := h1
    have hd : c.drop = false := by simpa using h2
    split
    · rename_i h4
      have hpol : Policy c (some 0) := ⟨by simp [hd], by simp [h1], fun _ _ => by simp, fun _ o ho => by cases ho; rfl⟩
      refine ⟨hok _, hpol, hP _ hpol ?_⟩
      simp only [convObject, Option.isNone_some, Bool.false_eq_true, if_false, zoned, h1, convTz, h4, if_true, toUTC]
      have e := ofUs_localUs _ (hok (some 0))
      have e2 : DateTime.instant ⟨dateAt r, randrange 24 (r 3), randrange 60 (r 4), randrange 60 (r 5), randrange 1000000 (r 6), some 0⟩ =
          DateTime.localUs ⟨dateAt r, randrange 24 (r 3), randrange 60 (r 4), randrange 60 (r 5), randrange 1000000 (r 6), some 0⟩ := by
        simp [DateTime.instant]
      rw [e2, e]
      simp [dropTz, hd]
    · rename_i h4
      have hc : c.convert = false := by simpa using h4
      have hpol : ∀ o, Policy c (some o) := fun o => ⟨by simp [hd], by simp [h1], fun _ _ => by simp, by simp [hc]⟩
      refine ⟨hok _, hpol _, hP _ (hpol _) ?_⟩
      simp [convObject, zoned, h1, convTz, hc, dropTz, hd]

theorem pyLt_int (a b : Int) : pyLt (.int a) (.int b) = .ok (decide (a < b)) := by
  have h : (Num.fin (a : Rat)).lt (Num.fin (b : Rat)) = decide (a < b) := by simp [Num.lt]
  rw [← h]
  rfl

/-- **C73, points**: mocked points are accepted by their own field. -/
theorem C73_geo (r : Tape) (v : Val) (h : geo r = some v) : Accepted geoType v := by
  cases h
  intro app
  have h1 := Nat.mod_lt (r 0) (show 180 > 0 by omega)
  have h2 := Nat.mod_lt (r 1) (show 360 > 0 by omega)
  refine ⟨rfl, ?_⟩
  simp only [geoType, List.mem_singleton, forall_eq, validateGeo, geoElements]
  simp only [pyLt_int]
  have e1 : decide ((-90 + (randrange 180 (r 0) : Int)) < -90) = false := by unfold randrange; rw [decide_eq_false_iff_not]; push_cast; omega
  have e2 : decide ((90 : Int) < (-90 + (randrange 180 (r 0) : Int))) = false := by unfold randrange; rw [decide_eq_false_iff_not]; push_cast; omega
  have e3 : decide ((-180 + (randrange 360 (r 1) : Int)) < -180) = false := by unfold randrange; rw [decide_eq_false_iff_not]; push_cast; omega
  have e4 : decide ((180 : Int) < (-180 + (randrange 360 (r 1) : Int))) = false := by unfold randrange; rw [decide_eq_false_iff_not]; push_cast; omega
  rw [e1, e2, e3, e4]
  rfl

theorem natText_octet (n : Nat) (h : n < 256) : IsOctet (natText n) := by
  have : ∀ n, n < 256 → (natText n).length ≤ 3 := by decide +kernel
  refine ⟨List.length_pos_iff.2 (natText_ne_nil n), this n h, natText_ascii n, ?_⟩
  have : ∀ n, n < 256 → ofDigits 10 0 ((natText n).map fun c => c.toNat - 48) ≤ 255 := by decide +kernel
  exact this n h

theorem isHex_of_lower {c : Char} (h : IsLowerHex c) : isHex c = true := by
  have : ('0'.toNat ≤ c.toNat ∧ c.toNat ≤ '9'.toNat) ∨ ('a'.toNat ≤ c.toNat ∧ c.toNat ≤ 'f'.toNat) := h
  have e : ('0'.toNat = 48 ∧ '9'.toNat = 57) ∧ ('a'.toNat = 97 ∧ 'f'.toNat = 102) := by decide
  unfold isHex
  simp
  omega

theorem hexNat_group (n : Nat) (h : n < 2 ^ 16) : IsGroup (hexNat n) := by
  have hlen : ∀ k n, n < 16 ^ (k + 1) → 1 ≤ (hexNat n).length ∧ (hexNat n).length ≤ k + 1 := by
    intro k
    induction k with
    | zero =>
      intro n hn
      rw [hexNat, if_pos (by simpa using hn)]
      simp
    | succ k ih =>
      intro n hn
      rw [hexNat]
      split
      · simp
      · have : n / 16 < 16 ^ (k + 1) := by
          rw [Nat.div_lt_iff_lt_mul (by omega)]
          rw [pow_succ] at hn
          exact hn
        have := ih _ this
        rw [List.length_append]
        simp only [List.length_singleton]
        omega
  have hmem : ∀ n, ∀ c ∈ hexNat n, isHex c = true := by
    intro n
    induction n using Nat.strong_induction_on with
    | _ n ih =>
      intro c hc
      rw [hexNat] at hc
      split at hc
      · rw [List.mem_singleton] at hc
        subst hc
        exact isHex_of_lower (hexDigit_lower n (by assumption))
      · rcases List.mem_append.1 hc with hc | hc
        · exact ih (n / 16) (by omega) c hc
        · rw [List.mem_singleton] at hc
          subst hc
          exact isHex_of_lower (hexDigit_lower _ (by omega))
  have := hlen 3 n (by simpa using h)
  exact ⟨this.1, this.2, hmem n⟩

/-- A text that a pattern type accepts. -/
theorem accepted_pattern (msg : Msg) (re : Re) (s : String) (h : ∀ app, Passes (patternType msg re none none none) app s) :
    Accepted (patternType msg re none none none) (.str s) := fun app => ⟨rfl, h app⟩

/-- **C73, addresses**: mocked IPv4, IPv6 and MAC addresses are addresses and are accepted by their own fields. -/
theorem C73_addresses (r : Tape) (v : Val) :
    (ipv4 r = some v → (∃ s, v = .str s ∧ IsIPv4 s.toList) ∧ Accepted ipv4Type v) ∧
    (ipv6 r = some v → (∃ s, v = .str s ∧ IsIPv6 s.toList) ∧ Accepted ipv6Type v) ∧
    (mac r = some v → (∃ s, v = .str s ∧ IsMac s.toList) ∧ Accepted macType v) := by
  have hb : ∀ n x, 0 < n → randrange n x < n := fun n x h => Nat.mod_lt x h
  refine ⟨?_, ?_, ?_⟩
  · intro h; cases h
    have : IsIPv4 (String.ofList (join '.' ((List.range 4).map fun i => natText (randrange 256 (r i))))).toList := by
      rw [String.toList_ofList]
      refine ⟨_, _, _, _, natText_octet _ (hb 256 (r 0) (by omega)), natText_octet _ (hb 256 (r 1) (by omega)),
        natText_octet _ (hb 256 (r 2) (by omega)), natText_octet _ (hb 256 (r 3) (by omega)), ?_⟩
      simp [List.range, List.range.loop, join]
    exact ⟨⟨_, rfl, this⟩, accepted_pattern _ _ _ (fun app => (C58_ipv4_exact app _).2 (Or.inl this))⟩
  · intro h; cases h
    have : IsIPv6 (String.ofList ("2001:db8:".toList ++ join ':' ((List.range 6).map fun i => hexNat (randrange (2 ^ 16) (r i))))).toList := by
      rw [String.toList_ofList]
      refine Or.inl ⟨['2', '0', '0', '1'] :: ['d', 'b', '8'] :: ((List.range 6).map fun i => hexNat (randrange (2 ^ 16) (r i))), ?_, ?_⟩
      · have g1 : IsGroup ['2', '0', '0', '1'] := by unfold IsGroup; decide
        have g2 : IsGroup ['d', 'b', '8'] := by unfold IsGroup; decide
        have hg : ∀ i, IsGroup (hexNat (randrange (2 ^ 16) (r i))) := fun i => hexNat_group _ (hb _ _ (by norm_num))
        refine .cons _ _ 7 g1 (.cons _ _ 6 g2 ?_)
        exact .cons _ _ 5 (hg 0) (.cons _ _ 4 (hg 1) (.cons _ _ 3 (hg 2) (.cons _ _ 2 (hg 3) (.cons _ _ 1 (hg 4) (.cons _ _ 0 (hg 5) .nil)))))
      · simp [List.range, List.range.loop, join, joinC]
    exact ⟨⟨_, rfl, this⟩, accepted_pattern _ _ _ (fun app => (C59_ipv6_exact app _).2 (Or.inl this))⟩
  · intro h; cases h
    have : IsMac (String.ofList (join ':' ((List.range 6).map fun i => hexText 2 (randrange 256 (r i))))).toList := by
      rw [String.toList_ofList]
      refine Or.inr (Or.inl ⟨(List.range 6).map fun i => hexText 2 (randrange 256 (r i)), ⟨by simp, ?_⟩, ?_⟩)
      · intro b hb
        obtain ⟨i, -, rfl⟩ := List.mem_map.1 hb
        exact ⟨hexText_length _ _, fun c hc => isHex_of_lower (hexText_lower _ _ c hc)⟩
      · simp [List.range, List.range.loop, join, joinSep]
    exact ⟨⟨_, rfl, this⟩, fun app => ⟨rfl, (C61_mac_exact app _).2 (Or.inl (Or.inl this))⟩⟩

theorem truncate_mem {lo hi : Int} {u : Rat} (h0 : 0 ≤ lo) (h1 : (lo : Rat) ≤ u) (h2 : u ≤ hi) : lo ≤ truncate u ∧ truncate u ≤ hi := by
  have hu : 0 ≤ u := le_trans (by exact_mod_cast h0) h1
  rw [truncate, if_pos hu]
  constructor
  · exact Rat.le_floor_iff.2 h1
  · have : (u.floor : Rat) ≤ hi := le_trans (Rat.floor_le u) h2
    exact_mod_cast this

/-- **C73, integers**: for every outcome of `random.uniform` within its bounds, a mocked `IntType` is accepted by its own field if its bounds are
integers. -/
theorem C73_int (min max : Option Int) (u : Int × Int → Rat) (hu : ∀ p, p.1 ≤ p.2 → (p.1 : Rat) ≤ u p ∧ u p ≤ (p.2 : Rat)) (v : Val)
    (h : int min max u = some v) : Accepted (intType (min.map Val.int) (max.map Val.int)) v := by
  unfold int at h
  cases he : endpoints min max 0 0 with
  | none => rw [he] at h; cases h
  | some p =>
    rw [he] at h; cases h
    have hp : p.1 ≤ p.2 ∧ 0 ≤ p.1 ∧ (∀ m, min = some m → m ≤ p.1) ∧ (∀ m, max = some m → p.2 ≤ m) := by
      unfold endpoints at he
      simp only [ne_eq, not_true_eq_false, if_false] at he
      split at he
      · cases he
      · split at he
        · cases he
        · cases he
          refine ⟨by omega, by omega, ?_, ?_⟩
          · rintro m rfl; simp
          · rintro m rfl; simp
    obtain ⟨h1, h2, h3, h4⟩ := hp
    obtain ⟨h5, h6⟩ := truncate_mem h2 (hu p h1).1 (hu p h1).2
    intro app
    refine ⟨rfl, ?_⟩
    simp only [intType, List.mem_singleton, forall_eq, validateRange]
    have hmin : minCheck (min.map Val.int) (.int (truncate (u p))) = .ok () := by
      cases min with
      | none => rfl
      | some m =>
        have := h3 m rfl
        have hd : decide (truncate (u p) < m) = false := by simp; omega
        simp only [Option.map_some, minCheck, pyLt_int, hd, bound]
    rw [hmin]
    cases max with
    | none => rfl
    | some m =>
      have := h4 m rfl
      have hd : decide (m < truncate (u p)) = false := by simp; omega
      simp only [Option.map_some, maxCheck, pyLt_int, hd, bound]

/-- **C73, lists**: the length of a mocked list is within the bounds of its own field. -/
theorem C73_list (max min : Option Nat) (r : Tape) :
    (∀ n, listLength max min r = some n → (∀ m, min = some m → m ≤ n) ∧ ∀ m, max = some m → n ≤ m) ∧
    (listLength max min r = none ↔ ∃ a b, min = some a ∧ max = some b ∧ b < a) := by
  have hr := C73_range (lift min) (lift max) 0 0 (by omega)
  constructor
  · intro n h
    unfold listLength at h
    cases hn : valueIn (lift min) (lift max) 0 0 (r 0) with
    | none => rw [hn] at h; cases h
    | some k =>
      rw [hn] at h; cases h
      obtain ⟨h0, h1, h2⟩ := hr.1 _ _ hn
      constructor
      · rintro m rfl; have := h1 m rfl; omega
      · rintro m rfl; have := h2 m rfl; omega
  · rw [← (C73_string max min r).2]
    unfold listLength string
    cases valueIn (lift min) (lift max) 0 0 (r 0) <;> simp

/-- **C73, the whole field**: the mock of a field is one of its choices if it has any, else a mock of its type, and only for an optional field possibly
its default. -/
theorem C73_field (required : Bool) (dflt : Val) (choices : Option (List Val)) (inner : Option Val) (coin pick : Nat) (v : Val)
    (h : mock required dflt choices inner coin pick = some v) :
    (required = false ∧ v = dflt) ∨ (∃ cs, choices = some cs ∧ v ∈ cs) ∨ (choices = none ∧ inner = some v) := by
  unfold mock at h
  cases required with
  | true =>
    simp only [Bool.not_true, Bool.false_and, Bool.false_eq_true, if_false] at h
    cases choices with
    | none => exact Or.inr (Or.inr ⟨rfl, h⟩)
    | some cs => exact Or.inr (Or.inl ⟨cs, rfl, List.mem_of_getElem? h⟩)
  | false =>
    split at h
    · cases h; exact Or.inl ⟨rfl, rfl⟩
    · cases choices with
      | none => exact Or.inr (Or.inr ⟨rfl, h⟩)
      | some cs => exact Or.inr (Or.inl ⟨cs, rfl, List.mem_of_getElem? h⟩)

/-! ## What fails -/

/-- **C73, counterexample for multilingual strings**: no mock of a `MultilingualStringType` is ever accepted by its own field. -/
theorem C73_multilingual_never (max min : Option Nat) (r : Tape) (v : Val) (h : multilingual max min r = some v) (app : Val) :
    ∀ w, (multiType).toNative app v ≠ .ok w := by
  unfold multilingual string at h
  cases hn : valueIn (lift min) (lift max) 0 0 (r 0) with
  | none => rw [hn] at h; cases h
  | some n => rw [hn] at h; cases h; intro w hw; cases hw

/-- **C73, counterexample for negative numbers**: a field with `max_value < 0` cannot be mocked although it accepts numbers. -/
theorem C73_negative_never (min : Option Int) (m : Int) (hm : m < 0) (u : Int × Int → Rat) : int min (some m) u = none := by
  unfold int endpoints
  simp [hm]

/-- **C73, negative numbers are never mocked**: whatever the bounds, a mocked integer is not negative. -/
theorem C73_never_negative (min max : Option Int) (u : Int × Int → Rat) (hu : ∀ p, p.1 ≤ p.2 → (p.1 : Rat) ≤ u p ∧ u p ≤ (p.2 : Rat)) (v : Val)
    (h : int min max u = some v) : ∃ i, v = .int i ∧ 0 ≤ i := by
  unfold int at h
  cases he : endpoints min max 0 0 with
  | none => rw [he] at h; cases h
  | some p =>
    rw [he] at h; cases h
    have hp : p.1 ≤ p.2 ∧ 0 ≤ p.1 := by
      unfold endpoints at he
      simp only [ne_eq, not_true_eq_false, if_false] at he
      split at he
      · cases he
      · split at he
        · cases he
        · cases he; constructor <;> omega
    exact ⟨_, rfl, by have := (truncate_mem hp.2 (hu p hp.1).1 (hu p hp.1).2).1; omega⟩

/-! ## The hypotheses are met -/

/-- A tape. -/
def sampleTape : Tape := fun i => i * i + 7

example : string (some 5) (some 3) sampleTape = some (.str "ilqx") := rfl
example : ∃ v, int (some 3) (some 9) (fun p => (p.1 + p.2 : Rat) / 2) = some v := ⟨_, rfl⟩
example : ∀ p : Int × Int, p.1 ≤ p.2 → (p.1 : Rat) ≤ (p.1 + p.2 : Rat) / 2 ∧ (p.1 + p.2 : Rat) / 2 ≤ (p.2 : Rat) := by
  intro p h
  have : (p.1 : Rat) ≤ (p.2 : Rat) := by exact_mod_cast h
  constructor <;> linarith
example : string (some 2) (some 3) sampleTape = none := (C73_string _ _ _).2.2 ⟨3, 2, rfl, rfl, by omega⟩

end Verif.Types.Mock
