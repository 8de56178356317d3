import Mathlib.Tactic.FinCases
import Verif.Types.DateTime

/-!
# C50: dates survive export and import
-/
namespace Verif.Types
open Verif.Py

/-- Four digits, zero-padded. -/
def four (n : Nat) : List Char := [digit (n / 1000), digit (n / 100 % 10), digit (n / 10 % 10), digit (n % 10)]

/-- The ISO 8601 text `YYYY-MM-DD`. -/
def isoText (y m d : Nat) : List Char := four y ++ '-' :: two m ++ '-' :: two d

theorem daysInMonth_le (y m : Nat) : daysInMonth y m ≤ 31 := by
  unfold daysInMonth
  split
  any_goals omega
  split <;> omega

theorem digitVal_dash : digitVal '-' = none := by decide

theorem takeDigits_four {y : Nat} (hy : y < 10000) (r : List Char) : takeDigits 4 0 (four y ++ r) = some (y, r) := by
  simp only [four, List.cons_append, List.nil_append, takeDigits]
  rw [digitVal_digit _ (by omega), digitVal_digit _ (by omega), digitVal_digit _ (by omega), digitVal_digit _ (by omega)]
  simp only [Option.some.injEq, Prod.mk.injEq, and_true]
  omega

theorem takeDigits_two {n : Nat} (hn : n < 100) (r : List Char) : takeDigits 2 0 (two n ++ r) = some (n, r) := by
  simp only [two, List.cons_append, List.nil_append, takeDigits]
  rw [digitVal_digit _ (by omega), digitVal_digit _ (by omega)]
  simp only [Option.some.injEq, Prod.mk.injEq, and_true]
  omega

theorem natText_four {y : Nat} (h1 : 1000 ≤ y) (h2 : y < 10000) : natText y = four y := by
  rw [natText_step (by omega), natText_step (by omega), natText_step (by omega), natText_small (by omega)]
  simp only [four, List.cons_append, List.nil_append]
  rw [show y / 10 / 10 / 10 = y / 1000 by omega, show y / 10 / 10 % 10 = y / 100 % 10 by omega]

theorem strpMonth_two : ∀ m, m < 100 → ∀ r, strpMonth (two m ++ '-' :: r) = if 1 ≤ m ∧ m ≤ 12 then some (m, r) else none := by
  have key : ∀ m : Fin 100, ∀ r, strpMonth (two m ++ '-' :: r) = if 1 ≤ m.val ∧ m.val ≤ 12 then some (m.val, r) else none := by
    intro m r
    fin_cases m <;> rfl
  intro m hm r
  exact key ⟨m, hm⟩ r

theorem strpDay_two : ∀ d, d < 100 → strpDay (two d) = if 1 ≤ d ∧ d ≤ 31 then some d else none := by
  decide +kernel

/-- What the default format does with an ISO text: it denotes the date if that exists, and is refused if not. -/
theorem strpDate_iso {y m d : Nat} (hy : y < 10000) (hm : m < 100) (hd : d < 100) :
    strpDate (isoText y m d) = if DateOk ⟨y, m, d⟩ then some ⟨y, m, d⟩ else none := by
  have hle : daysInMonth y m ≤ 31 := daysInMonth_le _ _
  unfold strpDate isoText
  simp only [List.append_assoc, List.cons_append]
  rw [takeDigits_four hy]
  simp only [eat, if_pos]
  rw [strpMonth_two m hm]
  by_cases h1 : 1 ≤ m ∧ m ≤ 12
  · rw [if_pos h1]
    simp only
    rw [strpDay_two d hd]
    by_cases h2 : 1 ≤ d ∧ d ≤ 31
    · rw [if_pos h2]; rfl
    · rw [if_neg h2, if_neg]
      intro h
      exact h2 ⟨h.2.2.2.2.1, le_trans h.2.2.2.2.2 hle⟩
  · rw [if_neg h1, if_neg]
    intro h
    exact h1 ⟨h.2.2.1, h.2.2.2.1⟩

/-- A date is a plain, valid date. -/
theorem dateText_iso {d : Date} (h : DateOk d) (hy : 1000 ≤ d.y) : dateText d = isoText d.y d.m d.d := by
  unfold dateText isoText
  rw [natText_four hy (by have := h.2.1; omega)]

theorem dateOk_bounds {d : Date} (h : DateOk d) : d.y < 10000 ∧ d.m < 100 ∧ d.d < 100 := by
  have hle : daysInMonth d.y d.m ≤ 31 := daysInMonth_le _ _
  obtain ⟨_, h2, _, h4, _, h6⟩ := h
  omega

/-- **C50.**  For every valid date of the years 1000-9999, importing the exported text gives the date back. -/
theorem C50_date_round_trip (d : Date) (h : DateOk d) (hy : 1000 ≤ d.y) (eapp iapp : Val) :
    ∃ s, (dateType).toPrimitive eapp (.date d) = .ok (.str s) ∧ (dateType).toNative iapp (.str s) = .ok (.date d) := by
  refine ⟨_, rfl, ?_⟩
  have := dateOk_bounds h
  show dateNative [] (.str _) = _
  simp only [dateNative, dateFormats, List.isEmpty_nil, if_true, firstSome, String.toList_ofList]
  rw [dateText_iso h hy, strpDate_iso this.1 this.2.1 this.2.2, if_pos h]

/-- **C50.**  An ISO text `YYYY-MM-DD` is read as the date it names if the calendar has it, and refused with
`ConversionError` if not: 30 February, 29 February of common years, month 13, day 0, year 0. -/
theorem C50_iso_text (y m d : Nat) (hy : y < 10000) (hm : m < 100) (hd : d < 100) (iapp : Val) :
    (DateOk ⟨y, m, d⟩ → (dateType).toNative iapp (.str (String.ofList (isoText y m d))) = .ok (.date ⟨y, m, d⟩)) ∧
    (¬ DateOk ⟨y, m, d⟩ → (dateType).toNative iapp (.str (String.ofList (isoText y m d))) = convErr "parse") := by
  constructor
  · intro h
    show dateNative [] (.str _) = _
    simp only [dateNative, dateFormats, List.isEmpty_nil, if_true, firstSome, String.toList_ofList]
    rw [strpDate_iso hy hm hd, if_pos h]
  · intro h
    show dateNative [] (.str _) = _
    simp only [dateNative, dateFormats, List.isEmpty_nil, if_true, firstSome, String.toList_ofList]
    rw [strpDate_iso hy hm hd, if_neg h]

theorem takeDigits_short : ∀ (xs : List Char) (k a : Nat) (c : Char) (r : List Char), xs.length < k → digitVal c = none →
    takeDigits k a (xs ++ c :: r) = none := by
  intro xs
  induction xs with
  | nil =>
    intro k a c r hk hc
    obtain ⟨k, rfl⟩ : ∃ j, k = j + 1 := ⟨k - 1, by simp at hk; omega⟩
    simp [takeDigits, hc]
  | cons x xs ih =>
    intro k a c r hk hc
    obtain ⟨k, rfl⟩ : ∃ j, k = j + 1 := ⟨k - 1, by simp at hk; omega⟩
    simp only [List.cons_append, takeDigits]
    cases digitVal x with
    | none => rfl
    | some d => exact ih k _ c r (by simpa using hk) hc

theorem natText_short {y : Nat} (hy : y < 1000) : (natText y).length < 4 := by
  by_cases h1 : y < 10
  · rw [natText_small h1]; simp
  · rw [natText_step h1]
    by_cases h2 : y / 10 < 10
    · rw [natText_small h2]; simp
    · rw [natText_step h2, natText_small (by omega)]; simp

/-- **C50, what fails.**  Every date before the year 1000 is exported without padding (glibc `strftime`), and the exported text is
refused on import. -/
theorem C50_counterexample_early_years (d : Date) (hy : d.y < 1000) (eapp iapp : Val) :
    ∃ s, (dateType).toPrimitive eapp (.date d) = .ok (.str s) ∧ (dateType).toNative iapp (.str s) = convErr "parse" := by
  refine ⟨_, rfl, ?_⟩
  show dateNative [] (.str _) = _
  simp only [dateNative, dateFormats, List.isEmpty_nil, if_true, firstSome, String.toList_ofList]
  unfold strpDate dateText
  simp only [List.append_assoc, List.cons_append]
  rw [takeDigits_short _ _ _ _ _ (natText_short hy) digitVal_dash]

/-- **C50.**  Whatever text and formats: a converted value is a date, and with the default format one of the calendar. -/
theorem C50_only_dates (v w : Val) (iapp : Val) (hv : ∀ d, v = .date d → DateOk d) (hv' : ∀ t, v = .datetime t → DateOk t.date)
    (h : (dateType).toNative iapp v = .ok w) : ∃ d, w = .date d ∧ DateOk d := by
  replace h : dateNative [] v = .ok w := h
  unfold dateNative at h
  split at h
  · cases h; exact ⟨_, rfl, hv' _ rfl⟩
  · cases h; exact ⟨_, rfl, hv _ rfl⟩
  · rename_i s
    cases hf : firstSome (dateFormats []) s.toList with
    | none => rw [hf] at h; cases h
    | some d =>
      rw [hf] at h
      cases h
      refine ⟨d, rfl, ?_⟩
      simp only [dateFormats, List.isEmpty_nil, if_true, firstSome] at hf
      cases hp : strpDate s.toList with
      | none => rw [hp] at hf; cases hf
      | some e =>
        rw [hp] at hf
        cases hf
        unfold strpDate at hp
        have mk : ∀ y m d, ∀ e, mkDate y m d = some e → DateOk e := by
          intro y m d e he
          unfold mkDate at he
          split at he
          · cases he; assumption
          · cases he
        repeat' split at hp
        all_goals first | cases hp | exact mk _ _ _ _ hp
  · cases h

/-! ## The hypotheses are met -/

/-- 29 February 2024 exists, and 29 February 2023 does not. -/
example : DateOk ⟨2024, 2, 29⟩ ∧ ¬ DateOk ⟨2023, 2, 29⟩ := by decide

/-- A leap day round trip. -/
example : dateNative [] (.str "2024-02-29") = .ok (.date ⟨2024, 2, 29⟩) := by rfl

end Verif.Types
