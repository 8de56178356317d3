import Verif.Py.Text

/-!
# Python `datetime`: calendar arithmetic

Part of the modelled Python runtime: valid dates, `date.toordinal` / `fromordinal`, `datetime + timedelta`, `astimezone`.
-/
namespace Verif.Py

/-- A valid `datetime.date`. -/
def DateOk (d : Date) : Prop := 1 ≤ d.y ∧ d.y ≤ 9999 ∧ 1 ≤ d.m ∧ d.m ≤ 12 ∧ 1 ≤ d.d ∧ d.d ≤ daysInMonth d.y d.m

instance (d : Date) : Decidable (DateOk d) := inferInstanceAs (Decidable (_ ∧ _))

/-- A valid `datetime.datetime` (the zone offset is checked by Python only when it is used). -/
def DateTimeOk (t : DateTime) : Prop := DateOk t.date ∧ t.h < 24 ∧ t.mi < 60 ∧ t.s < 60 ∧ t.us < 1000000

instance (t : DateTime) : Decidable (DateTimeOk t) := inferInstanceAs (Decidable (_ ∧ _))

/-- Days in a year. -/
def yearLen (y : Nat) : Nat := if isLeap y then 366 else 365

/-- Find the year of a day number, starting from a year that is not too late. -/
def findYear (n : Nat) : Nat → Nat → Nat
  | 0, y => y
  | f + 1, y => if daysBeforeYear (y + 1) < n then findYear n f (y + 1) else y

/-- Find the month of day `k` (from 1) of year `y`, starting from month `m`. -/
def findMonth (y k : Nat) : Nat → Nat → Nat
  | 0, m => m
  | f + 1, m => if daysBeforeMonth y (m + 1) < k then findMonth y k f (m + 1) else m

/-- `date.fromordinal(n)` without the range check. -/
def ofOrdinal (n : Nat) : Date :=
  let y := findYear n n (n / 366 + 1)
  let k := n - daysBeforeYear y
  let m := findMonth y k 11 1
  ⟨y, m, k - daysBeforeMonth y m⟩

/-- Microseconds of a day. -/
def dayUs : Nat := 86400000000

/-- The datetime at `us` microseconds after the start of day 0, without range check (`us` at least one day). -/
def ofLocalUs (us : Nat) (tz : Option Int) : DateTime :=
  let r := us % dayUs
  ⟨ofOrdinal (us / dayUs), r / 3600000000, r / 60000000 % 60, r / 1000000 % 60, r % 1000000, tz⟩

/-- `date.max.toordinal()` -/
def maxOrdinal : Nat := 3652059

/-- The datetime at a number of microseconds; `none` is `OverflowError` (year outside 1..9999). -/
def ofUs (us : Int) (tz : Option Int) : Option DateTime :=
  if (dayUs : Int) ≤ us ∧ us < (maxOrdinal + 1) * dayUs then some (ofLocalUs us.toNat tz) else none

/-! ## Correctness of the calendar -/

theorem daysBeforeYear_succ (y : Nat) (h : 1 ≤ y) : daysBeforeYear (y + 1) = daysBeforeYear y + yearLen y := by
  obtain ⟨k, rfl⟩ : ∃ k, y = k + 1 := ⟨y - 1, by omega⟩
  unfold daysBeforeYear yearLen isLeap
  simp only [Nat.add_sub_cancel]
  by_cases h4 : (k + 1) % 4 = 0
  · by_cases h100 : (k + 1) % 100 = 0
    · by_cases h400 : (k + 1) % 400 = 0
      · simp [h4, h400]; omega
      · simp [h4, h100, h400]; omega
    · simp [h4, h100]; omega
  · simp [h4]; omega

theorem yearLen_pos (y : Nat) : 365 ≤ yearLen y ∧ yearLen y ≤ 366 := by unfold yearLen; split <;> omega

theorem daysBeforeYear_mono {a b : Nat} (ha : 1 ≤ a) (h : a ≤ b) : daysBeforeYear a ≤ daysBeforeYear b := by
  induction b with
  | zero => omega
  | succ b ih =>
    by_cases hb : a = b + 1
    · rw [hb]; exact Nat.le_refl _
    · have := ih (by omega)
      rw [daysBeforeYear_succ b (by omega)]
      omega

theorem daysBeforeYear_le (y : Nat) (h : 1 ≤ y) : daysBeforeYear y ≤ (y - 1) * 366 := by
  obtain ⟨k, rfl⟩ : ∃ k, y = k + 1 := ⟨y - 1, by omega⟩
  unfold daysBeforeYear
  simp only [Nat.add_sub_cancel]
  omega

theorem daysBeforeYear_ge (y : Nat) (h : 1 ≤ y) : (y - 1) * 365 ≤ daysBeforeYear y := by
  obtain ⟨k, rfl⟩ : ∃ k, y = k + 1 := ⟨y - 1, by omega⟩
  unfold daysBeforeYear
  simp only [Nat.add_sub_cancel]
  omega

theorem findYear_spec (n : Nat) : ∀ f y, 1 ≤ y → daysBeforeYear y < n → n ≤ daysBeforeYear (y + f) →
    1 ≤ findYear n f y ∧ daysBeforeYear (findYear n f y) < n ∧ n ≤ daysBeforeYear (findYear n f y + 1) := by
  intro f
  induction f with
  | zero => intro y h1 h2 h3; simp at h3; omega
  | succ f ih =>
    intro y h1 h2 h3
    rw [findYear]
    split
    · rename_i h
      exact ih (y + 1) (by omega) h (by rw [show y + 1 + f = y + (f + 1) by omega]; exact h3)
    · rename_i h
      exact ⟨h1, h2, by omega⟩

theorem year_of (n : Nat) (hn : 1 ≤ n) : 1 ≤ findYear n n (n / 366 + 1) ∧ daysBeforeYear (findYear n n (n / 366 + 1)) < n ∧
    n ≤ daysBeforeYear (findYear n n (n / 366 + 1) + 1) := by
  refine findYear_spec n n _ (by omega) ?_ ?_
  · have := daysBeforeYear_le (n / 366 + 1) (by omega)
    simp only [Nat.add_sub_cancel] at this
    by_cases h : n < 366
    · rw [Nat.div_eq_of_lt h] at *; simp at this; simp [daysBeforeYear]; omega
    · by_cases h0 : n % 366 = 0
      · -- exact multiple: the bound is not attained
        have h5 : daysBeforeYear (n / 366 + 1) < n / 366 * 366 := by
          unfold daysBeforeYear
          simp only [Nat.add_sub_cancel]
          have : 1 ≤ n / 366 := by omega
          omega
        omega
      · omega
  · have := daysBeforeYear_ge (n / 366 + 1 + n) (by omega)
    omega

theorem daysInMonth_pos (y m : Nat) (h1 : 1 ≤ m) (h2 : m ≤ 12) : 28 ≤ daysInMonth y m := by
  have : m = 1 ∨ m = 2 ∨ m = 3 ∨ m = 4 ∨ m = 5 ∨ m = 6 ∨ m = 7 ∨ m = 8 ∨ m = 9 ∨ m = 10 ∨ m = 11 ∨ m = 12 := by omega
  rcases this with rfl | rfl | rfl | rfl | rfl | rfl | rfl | rfl | rfl | rfl | rfl | rfl <;> simp [daysInMonth]
  split <;> omega

theorem daysBeforeMonth_13 (y : Nat) : daysBeforeMonth y 13 = yearLen y := by
  simp only [daysBeforeMonth, daysInMonth, yearLen]
  split <;> rfl

theorem daysBeforeMonth_1 (y : Nat) : daysBeforeMonth y 1 = 0 := by simp [daysBeforeMonth, daysInMonth]

theorem findMonth_spec (y k : Nat) : ∀ f m, daysBeforeMonth y m < k → k ≤ daysBeforeMonth y (m + f + 1) →
    m ≤ findMonth y k f m ∧ findMonth y k f m ≤ m + f ∧ daysBeforeMonth y (findMonth y k f m) < k ∧
      k ≤ daysBeforeMonth y (findMonth y k f m + 1) := by
  intro f
  induction f with
  | zero => intro m h1 h2; exact ⟨Nat.le_refl _, Nat.le_refl _, h1, h2⟩
  | succ f ih =>
    intro m h1 h2
    rw [findMonth]
    split
    · rename_i h
      obtain ⟨a, b, c, d⟩ := ih (m + 1) h (by rw [show m + 1 + f + 1 = m + (f + 1) + 1 by omega]; exact h2)
      exact ⟨by omega, by omega, c, d⟩
    · rename_i h
      exact ⟨Nat.le_refl _, by omega, h1, by omega⟩

/-- `fromordinal` inverts `toordinal`. -/
theorem ofOrdinal_spec (n : Nat) (hn : 1 ≤ n) : (ofOrdinal n).ordinal = n ∧ 1 ≤ (ofOrdinal n).y ∧ 1 ≤ (ofOrdinal n).m ∧ (ofOrdinal n).m ≤ 12 ∧
    1 ≤ (ofOrdinal n).d ∧ (ofOrdinal n).d ≤ daysInMonth (ofOrdinal n).y (ofOrdinal n).m := by
  obtain ⟨h1, h2, h3⟩ := year_of n hn
  unfold ofOrdinal
  simp only
  generalize findYear n n (n / 366 + 1) = y at *
  rw [daysBeforeYear_succ y h1] at h3
  obtain ⟨a, b, c, d⟩ := findMonth_spec y (n - daysBeforeYear y) 11 1 (by rw [daysBeforeMonth_1]; omega)
    (by rw [show 1 + 11 + 1 = 13 from rfl, daysBeforeMonth_13]; omega)
  generalize findMonth y (n - daysBeforeYear y) 11 1 = m at *
  rw [daysBeforeMonth] at d
  refine ⟨?_, h1, a, b, ?_, ?_⟩
  · simp only [Date.ordinal]
    omega
  · omega
  · omega

theorem daysBeforeMonth_mono (y : Nat) {a b : Nat} (h : a ≤ b) : daysBeforeMonth y a ≤ daysBeforeMonth y b := by
  induction b with
  | zero => have : a = 0 := by omega
            subst this; exact Nat.le_refl _
  | succ b ih =>
    by_cases hb : a = b + 1
    · rw [hb]; exact Nat.le_refl _
    · have := ih (by omega)
      rw [daysBeforeMonth]; omega

/-- The month and day of a valid date lie within the year. -/
theorem date_bounds {d : Date} (h3 : 1 ≤ d.m) (h4 : d.m ≤ 12) (h5 : 1 ≤ d.d) (h6 : d.d ≤ daysInMonth d.y d.m) :
    daysBeforeYear d.y < d.ordinal ∧ d.ordinal ≤ daysBeforeYear d.y + yearLen d.y := by
  have h := daysBeforeMonth_mono d.y (show d.m + 1 ≤ 13 by omega)
  rw [daysBeforeMonth_13, daysBeforeMonth] at h
  simp only [Date.ordinal]
  omega

/-- Different valid dates have different ordinals. -/
theorem ordinal_inj {a b : Date} (ha : 1 ≤ a.y ∧ 1 ≤ a.m ∧ a.m ≤ 12 ∧ 1 ≤ a.d ∧ a.d ≤ daysInMonth a.y a.m)
    (hb : 1 ≤ b.y ∧ 1 ≤ b.m ∧ b.m ≤ 12 ∧ 1 ≤ b.d ∧ b.d ≤ daysInMonth b.y b.m) (h : a.ordinal = b.ordinal) : a = b := by
  obtain ⟨a1, a2, a3, a4, a5⟩ := ha
  obtain ⟨b1, b2, b3, b4, b5⟩ := hb
  have ba := date_bounds a2 a3 a4 a5
  have bb := date_bounds b2 b3 b4 b5
  have hy : a.y = b.y := by
    rcases Nat.lt_trichotomy a.y b.y with hlt | heq | hgt
    · have := daysBeforeYear_mono (show 1 ≤ a.y + 1 by omega) (show a.y + 1 ≤ b.y by omega)
      rw [daysBeforeYear_succ _ a1] at this; omega
    · exact heq
    · have := daysBeforeYear_mono (show 1 ≤ b.y + 1 by omega) (show b.y + 1 ≤ a.y by omega)
      rw [daysBeforeYear_succ _ b1] at this; omega
  simp only [Date.ordinal] at h
  rw [hy] at h a5
  have hm : a.m = b.m := by
    rcases Nat.lt_trichotomy a.m b.m with hlt | heq | hgt
    · have := daysBeforeMonth_mono b.y (show a.m + 1 ≤ b.m by omega)
      rw [daysBeforeMonth] at this; omega
    · exact heq
    · have := daysBeforeMonth_mono b.y (show b.m + 1 ≤ a.m by omega)
      rw [daysBeforeMonth] at this; omega
  rw [hm] at h
  cases a; cases b
  simp only at hy hm h
  simp only [Date.mk.injEq]
  exact ⟨hy, hm, by omega⟩

theorem ordinal_pos {d : Date} (h : DateOk d) : 1 ≤ d.ordinal := by
  obtain ⟨h1, h2, h3, h4, h5, h6⟩ := h
  have := date_bounds h3 h4 h5 h6
  omega

theorem ordinal_max {d : Date} (h : DateOk d) : d.ordinal ≤ maxOrdinal := by
  obtain ⟨h1, h2, h3, h4, h5, h6⟩ := h
  have h7 := date_bounds h3 h4 h5 h6
  have h8 := daysBeforeYear_mono (show 1 ≤ d.y + 1 by omega) (show d.y + 1 ≤ 10000 by omega)
  rw [daysBeforeYear_succ _ h1] at h8
  have : daysBeforeYear 10000 = maxOrdinal := by decide
  omega

theorem ofOrdinal_ok {n : Nat} (h1 : 1 ≤ n) (h2 : n ≤ maxOrdinal) : DateOk (ofOrdinal n) := by
  obtain ⟨a, b, c, d, e, f⟩ := ofOrdinal_spec n h1
  refine ⟨b, ?_, c, d, e, f⟩
  have h7 := date_bounds c d e f
  rw [a] at h7
  by_cases hy : (ofOrdinal n).y ≤ 9999
  · exact hy
  · exfalso
    have h8 := daysBeforeYear_mono (show 1 ≤ 10000 by omega) (show 10000 ≤ (ofOrdinal n).y by omega)
    have : daysBeforeYear 10000 = maxOrdinal := by decide
    omega

theorem ofOrdinal_ordinal {d : Date} (h : DateOk d) : ofOrdinal d.ordinal = d := by
  obtain ⟨a, b, c, d', e, f⟩ := ofOrdinal_spec d.ordinal (ordinal_pos h)
  exact ordinal_inj ⟨b, c, d', e, f⟩ ⟨h.1, h.2.2.1, h.2.2.2.1, h.2.2.2.2.1, h.2.2.2.2.2⟩ a

/-- Local microseconds as a natural number. -/
theorem localUs_nat (t : DateTime) : t.localUs = ((((t.date.ordinal * 24 + t.h) * 60 + t.mi) * 60 + t.s) * 1000000 + t.us : Nat) := by
  unfold DateTime.localUs
  generalize ((t.date.ordinal * 24 + t.h) * 60 + t.mi) * 60 + t.s = n
  omega

/-- `ofLocalUs` gives a valid time with the requested number of microseconds. -/
theorem ofLocalUs_spec (us : Nat) (tz : Option Int) (h1 : dayUs ≤ us) (h2 : us < (maxOrdinal + 1) * dayUs) :
    (ofLocalUs us tz).localUs = us ∧ DateTimeOk (ofLocalUs us tz) ∧ (ofLocalUs us tz).tz = tz := by
  unfold dayUs at h1 h2
  have hq1 : 1 ≤ us / 86400000000 := by omega
  have hq2 : us / 86400000000 ≤ maxOrdinal := by unfold maxOrdinal at *; omega
  obtain ⟨a, -⟩ := ofOrdinal_spec (us / 86400000000) hq1
  refine ⟨?_, ⟨ofOrdinal_ok hq1 hq2, ?_, ?_, ?_, ?_⟩, rfl⟩
  · rw [localUs_nat]
    simp only [ofLocalUs, dayUs, a]
    congr 1
    omega
  all_goals
    simp only [ofLocalUs, dayUs]
    omega

/-- A valid time is determined by its microseconds and zone. -/
theorem ofUs_localUs (t : DateTime) (h : DateTimeOk t) : ofUs t.localUs t.tz = some t := by
  obtain ⟨hd, hh, hm, hs, hu⟩ := h
  have h1 := ordinal_pos hd
  have h2 := ordinal_max hd
  have h3 := ofOrdinal_ordinal hd
  have hn := localUs_nat t
  generalize hN : (((t.date.ordinal * 24 + t.h) * 60 + t.mi) * 60 + t.s) * 1000000 + t.us = N at hn
  have hdiv : N / dayUs = t.date.ordinal := by unfold dayUs; omega
  have hrest : N % dayUs / 3600000000 = t.h ∧ N % dayUs / 60000000 % 60 = t.mi ∧ N % dayUs / 1000000 % 60 = t.s ∧ N % dayUs % 1000000 = t.us := by
    unfold dayUs; omega
  have hr : (dayUs : Int) ≤ t.localUs ∧ t.localUs < (maxOrdinal + 1) * dayUs := by
    rw [hn]; unfold dayUs maxOrdinal at *; omega
  rw [ofUs, if_pos hr, hn, Int.toNat_natCast, ofLocalUs]
  simp only [hdiv, h3, hrest.1, hrest.2.1, hrest.2.2.1, hrest.2.2.2]

theorem ofUs_spec {us : Int} {tz : Option Int} {t : DateTime} (h : ofUs us tz = some t) : t.localUs = us ∧ DateTimeOk t ∧ t.tz = tz := by
  unfold ofUs at h
  split at h
  · rename_i hr
    cases h
    have := ofLocalUs_spec us.toNat tz (by unfold dayUs maxOrdinal at *; omega) (by unfold dayUs maxOrdinal at *; omega)
    exact ⟨by rw [this.1]; unfold dayUs maxOrdinal at *; omega, this.2⟩
  · cases h

end Verif.Py
