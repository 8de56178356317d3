import Verif.Props.Date
import Verif.Props.Decimal

/-!
# C51-C53: datetimes survive export and import, the zone policy, conversion to UTC
-/
namespace Verif.Types
open Verif.Py

/-! ## A date text is no number -/

theorem isSpace_dash : isSpace '-' = false := by decide

/-- Non-empty ASCII digits. -/
def Digits (ds : List Char) : Prop := ds ≠ [] ∧ ∀ c ∈ ds, isAsciiDigit c = true

theorem strip_digits {ds : List Char} (hd : Digits ds) (r : List Char) : ∃ r', strip (ds ++ '-' :: r) = ds ++ '-' :: r' := by
  obtain ⟨pre, post, h, hpre, hpost⟩ := strip_spec (ds ++ '-' :: r)
  generalize strip (ds ++ '-' :: r) = mid at *
  cases pre with
  | cons c pre =>
    obtain ⟨d, ds', rfl⟩ := List.exists_cons_of_ne_nil hd.1
    simp only [List.cons_append, List.cons.injEq] at h
    have := hpre c (by simp)
    rw [← h.1, not_space_of_digit (digitVal_ascii (hd.2 d (by simp)))] at this
    cases this
  | nil =>
    rw [List.nil_append] at h
    have hnot : '-' ∉ post := fun hm => by have := hpost _ hm; rw [isSpace_dash] at this; cases this
    rcases List.append_eq_append_iff.1 h with ⟨x, h1, h2⟩ | ⟨x, h1, h2⟩
    · cases x with
      | nil => exact absurd (show '-' ∈ post by rw [List.nil_append] at h2; rw [← h2]; simp) hnot
      | cons c x =>
        simp only [List.cons_append, List.cons.injEq] at h2
        exact ⟨x, by rw [h1, h2.1]⟩
    · exact absurd (show '-' ∈ post by rw [h2]; simp) hnot

theorem dropUnderscores_cons {c : Char} (hc : c ≠ '_') (p : Bool) (cs : List Char) :
    dropUnderscores p (c :: cs) = (dropUnderscores (digitVal c).isSome cs).map (c :: ·) := by
  rw [dropUnderscores]
  · intro a b h; exact absurd h hc
  · intro h; exact absurd h hc

theorem dropUnderscores_digits {ds : List Char} (hd : ∀ c ∈ ds, isAsciiDigit c = true) (p : Bool) (r s : List Char)
    (h : dropUnderscores p (ds ++ '-' :: r) = some s) : ∃ r', s = ds ++ '-' :: r' := by
  induction ds generalizing p s with
  | nil =>
    rw [List.nil_append, dropUnderscores_cons (by decide), Option.map_eq_some_iff] at h
    obtain ⟨r', -, h⟩ := h
    exact ⟨r', h.symm⟩
  | cons c ds ih =>
    have hc : c ≠ '_' := by
      intro hc; have := hd c (by simp); rw [hc] at this; revert this; decide
    rw [List.cons_append, dropUnderscores_cons hc, Option.map_eq_some_iff] at h
    obtain ⟨s', h1, h2⟩ := h
    obtain ⟨r', hr⟩ := ih (fun c hc => hd c (by simp [hc])) _ _ h1
    exact ⟨r', by rw [← h2, hr]; rfl⟩

theorem digitsOf_ascii : ∀ {ds : List Char}, (∀ c ∈ ds, isAsciiDigit c = true) → ∃ vs, digitsOf ds = some vs := by
  intro ds
  induction ds with
  | nil => intro _; exact ⟨[], rfl⟩
  | cons c cs ih =>
    intro h
    obtain ⟨vs, hv⟩ := ih (fun c hc => h c (by simp [hc]))
    exact ⟨_, by rw [digitsOf, digitVal_ascii (h c (by simp)), hv]⟩

/-- `float()` refuses every text that starts with digits and a hyphen. -/
theorem parseFloat_date {ds : List Char} (hd : Digits ds) (r : List Char) : parseFloat (ds ++ '-' :: r) = none := by
  unfold parseFloat
  obtain ⟨r1, h1⟩ := strip_digits hd r
  rw [h1]
  cases h2 : dropUnderscores false (ds ++ '-' :: r1) with
  | none => rfl
  | some s =>
    obtain ⟨r2, rfl⟩ := dropUnderscores_digits hd.2 false r1 s h2
    obtain ⟨vs, hvs⟩ := digitsOf_ascii hd.2
    obtain ⟨d, ds', hds⟩ := List.exists_cons_of_ne_nil hd.1
    have hdig := hd.2 d (by simp [hds])
    have hne : ∀ c : Char, isAsciiDigit c = false → d ≠ c := by
      intro c hc he
      rw [he, hc] at hdig; cases hdig
    have hs : sign (ds ++ '-' :: r2) = (false, ds ++ '-' :: r2) := by
      rw [hds]
      unfold sign
      split
      · rename_i he; simp only [List.cons_append, List.cons.injEq] at he; exact absurd he.1 (hne _ (by decide))
      · rename_i he; simp only [List.cons_append, List.cons.injEq] at he; exact absurd he.1 (hne _ (by decide))
      · rfl
    have hw : parseFloatAbs (ds ++ '-' :: r2) = none := by
      have hl : ∀ w : Char, ∀ ws, isAsciiDigit w = false → lower (ds ++ '-' :: r2) ≠ w :: ws := by
        intro w ws hw he
        rw [hds] at he
        simp only [List.cons_append, lower, List.map_cons, List.cons.injEq] at he
        rw [toLower_digit d hdig] at he
        exact hne w hw he.1
      unfold parseFloatAbs
      rw [if_neg, if_neg]
      · have hsp : spanDigits (ds ++ '-' :: r2) = (vs, '-' :: r2) :=
          spanDigits_of hvs _ (by intro c r h; cases h; exact digitVal_dash)
        unfold parseNum
        simp [hsp, fracPart, expPart]
      · exact hl 'n' _ (by decide)
      · intro hm
        simp only [infWords, List.mem_cons, List.not_mem_nil, or_false] at hm
        rcases hm with hm | hm
        · exact hl 'i' _ (by decide) hm
        · exact hl 'i' _ (by decide) hm
    simp only [hs, hw, Option.map_none]

theorem digits_natText (n : Nat) : Digits (natText n) := ⟨natText_ne_nil n, natText_ascii n⟩

/-! ## C51: round trip -/

theorem takeUpTo_two {n : Nat} (hn : n < 100) (k a c : Nat) (r : List Char) :
    takeUpTo (k + 2) a c (two n ++ r) = takeUpTo k (100 * a + n) (c + 2) r := by
  simp only [two, List.cons_append, List.nil_append, takeUpTo]
  rw [digitVal_digit _ (by omega), digitVal_digit _ (by omega)]
  simp only
  rw [show 10 * (10 * a + n / 10) + n % 10 = 100 * a + n by omega]

theorem takeUpTo_six {n : Nat} (hn : n < 1000000) (r : List Char) : takeUpTo 6 0 0 (six n ++ r) = (n, 6, r) := by
  simp only [six, List.append_assoc]
  rw [takeUpTo_two (by omega), takeUpTo_two (by omega), takeUpTo_two (by omega), takeUpTo]
  simp only [Prod.mk.injEq, and_true]
  omega

theorem parseFrac_six {n : Nat} (hn : n < 1000000) (r : List Char) : parseFrac ('.' :: (six n ++ r)) = (n, r) := by
  simp only [parseFrac, true_or, if_true, takeUpTo_six hn]
  simp

theorem optColon_digit {d : Nat} (hd : d < 10) (r : List Char) : optColon (digit d :: r) = digit d :: r := by
  unfold optColon
  split
  · rename_i he
    simp only [List.cons.injEq] at he
    have := digitVal_digit d hd
    rw [he.1, show digitVal ':' = none by decide] at this
    cases this
  · rfl

theorem parseTz_tzText {tz : Option Int} (ho : ∀ o, tz = some o → o % 60 = 0 ∧ o.natAbs < 86400) :
    ∃ z, tzText tz = some z ∧ parseTz z = some tz := by
  cases tz with
  | none => exact ⟨[], rfl, rfl⟩
  | some o =>
    obtain ⟨h1, h2⟩ := ho o rfl
    have h3 : o.natAbs % 60 = 0 := by omega
    refine ⟨_, by rw [tzText, if_pos h2, if_pos h3], ?_⟩
    have hcol : ∀ (c : Char), c = '+' ∨ c = '-' →
        parseTz (c :: (two (o.natAbs / 3600) ++ two (o.natAbs / 60 % 60) ++ [])) =
          some (some (offsetSecs c (o.natAbs / 3600) (o.natAbs / 60 % 60))) := by
      intro c hc
      rw [parseTz, if_pos]
      · simp only [List.append_assoc]
        rw [takeDigits_two (by omega)]
        simp only
        rw [show optColon (two (o.natAbs / 60 % 60) ++ []) = two (o.natAbs / 60 % 60) ++ [] from
          optColon_digit (by omega) _]
        rw [tzMinutes, takeDigits_two (by omega)]
        rfl
      · rcases hc with rfl | rfl <;> rfl
      · intro he; exfalso; rcases hc with rfl | rfl <;> exact absurd he (by decide)
      · intro he; rcases hc with rfl | rfl <;> exact absurd he (by decide)
    by_cases hneg : o < 0
    · rw [if_pos hneg, hcol '-' (Or.inr rfl)]
      simp only [offsetSecs, show ('-' : Char) ≠ '+' by decide, if_false, Option.some.injEq]
      omega
    · rw [if_neg hneg, hcol '+' (Or.inl rfl)]
      simp only [offsetSecs, if_true, Option.some.injEq]
      omega

/-- Parsing a local time with microseconds and any zone text. -/
theorem fromString_text (d : Date) (h mi s us : Nat) (z : List Char) (tz : Option Int) (hy : d.y < 10000) (hm : d.m < 100) (hd : d.d < 100)
    (hh : h < 100) (hmi : mi < 100) (hs : s < 100) (hus : us < 1000000) (hz : parseTz z = some tz) :
    fromString (isoText d.y d.m d.d ++ 'T' :: two h ++ ':' :: two mi ++ ':' :: two s ++ '.' :: six us ++ z) = mkDateTime ⟨d, h, mi, s, us, tz⟩ := by
  unfold fromString isoDate isoText
  simp only [List.append_assoc, List.cons_append]
  rw [takeDigits_four hy]
  simp only [eat, if_pos]
  rw [takeDigits_two hm]
  simp only [if_pos]
  rw [takeDigits_two hd]
  simp only [eatT, isoClock]
  rw [takeDigits_two hh]
  simp only [eat, if_pos]
  rw [takeDigits_two hmi]
  simp only [parseSecs]
  rw [takeDigits_two hs]
  simp only
  rw [parseFrac_six hus, hz]

/-- The exported local time with some zone text is parsed to the datetime with that zone. -/
theorem parse_localText {t : DateTime} (h : DateTimeOk t) (hy : 1000 ≤ t.date.y) (z : List Char) (tz : Option Int) (hz : parseTz z = some tz) :
    builtinParse (.str (String.ofList (localText t ++ z))) = .ok { t with tz := tz } := by
  obtain ⟨hd, hh, hmi, hs, hus⟩ := h
  have hb := dateOk_bounds hd
  have hf : parseFloat (localText t ++ z) = none := by
    unfold localText dateText
    simp only [List.append_assoc, List.cons_append]
    exact parseFloat_date (digits_natText _) _
  have hp : fromString (localText t ++ z) = some { t with tz := tz } := by
    unfold localText
    rw [dateText_iso hd hy, fromString_text t.date t.h t.mi t.s t.us z tz hb.1 hb.2.1 hb.2.2 (by omega) (by omega) (by omega) hus hz]
    rw [mkDateTime, if_pos]
    exact ⟨hd, hh, hmi, hs, hus⟩
  simp only [builtinParse, callFloat, String.toList_ofList, hf, Call.ofOpt, hp]

/-- An offset a text can carry: whole minutes, less than a day. -/
def Minutes (tz : Option Int) : Prop := ∀ o, tz = some o → o % 60 = 0 ∧ o.natAbs < 86400

theorem toUTC_zero {t : DateTime} (h : DateTimeOk t) (hz : t.tz = some 0) : toUTC t = .ok t := by
  have := ofUs_localUs t h
  rw [hz] at this
  simp only [toUTC, hz, DateTime.instant, Option.getD_some]
  simp [this]

theorem zoned_utc {c : DTCfg} {t u : DateTime} (hr : c.tzd ≠ .reject) (hc : c.convert = true) (h : toUTC t = .ok u) : zoned c t = .ok (dropTz c.drop u) := by
  rw [zoned, if_neg hr, convTz, hc, if_pos rfl, h]

theorem dtNative_parse {c : DTCfg} {v : Val} {u : DateTime} (hv : ∀ t, v ≠ .datetime t) (h : dtParse c v = .ok u) : dtNative c v = toVal (convParsed c u) := by
  unfold dtNative
  split
  · exact absurd rfl (hv _)
  · rw [h]

theorem convParsed_zoned {c : DTCfg} {t : DateTime} {o : Int} (h : t.tz = some o) : convParsed c t = zoned c t := by
  rw [convParsed, h]; rfl

/-- A value that satisfies the zone policy of a field is left alone. -/
theorem convObject_keeps {c : DTCfg} {t : DateTime} (h : DateTimeOk t) (app : Val) (hv : validateTz c app (.datetime t) = .ok ()) :
    convObject c t = .ok t := by
  simp only [validateTz] at hv
  cases hz : t.tz with
  | none =>
    simp only [hz] at hv
    simp only [convObject, hz, Option.isNone_none, if_true, naiveObject]
    split at hv
    · rename_i hd; rw [if_pos hd]
    · rename_i hd
      rw [if_neg hd]
      split at hv
      · cases hv
      · rename_i hr
        rw [if_neg hr]
        split at hv
        · cases hv
        · rename_i hu; rw [if_neg hu]
  | some o =>
    simp only [hz] at hv
    simp only [convObject, hz, Option.isNone_some, zoned]
    split at hv
    · cases hv
    · rename_i hd
      split at hv
      · cases hv
      · rename_i hr
        rw [if_neg hr]
        split at hv
        · cases hv
        · rename_i hc
          simp only [convTz, dropTz]
          by_cases hc' : c.convert = true
          · have ho : o = 0 := by
              by_contra hne
              exact hc ⟨hc', hne⟩
            subst ho
            simp [hc', toUTC_zero h hz, hd]
          · simp [hc', hd]

/-- The same for parsed values, except that `tzd='require'` refuses naive text even if the zone is to be dropped. -/
theorem convParsed_keeps {c : DTCfg} {t : DateTime} (h : DateTimeOk t) (app : Val) (hv : validateTz c app (.datetime t) = .ok ())
    (hr : c.tzd = .require → t.tz ≠ none) : convParsed c t = .ok t := by
  have := convObject_keeps h app hv
  unfold convParsed
  unfold convObject at this
  cases hz : t.tz with
  | some o => simpa [hz] using this
  | none =>
    simp only [hz, Option.isNone_none, if_true, naiveObject] at *
    rw [naiveParsed, if_neg (fun he => hr he rfl)]
    by_cases hd : c.drop = true
    · simp [hd]
    · rw [if_neg hd, if_neg (fun he => hr he rfl)] at this
      have hd' : c.drop = false := by simpa using hd
      simp only [hd', and_true]
      exact this

/-- **C51.**  For every valid datetime from year 1000 on, at any microsecond, naive or with a whole-minute offset below a day, that the
field itself accepts: importing the exported text gives back the same local time and the same offset.  Holds for every setting of `tzd`,
`convert_tz` and `drop_tzinfo`; only naive values of a field that requires zones (and drops them) are left out. -/
theorem C51_datetime_round_trip (c : DTCfg) (t : DateTime) (hc : c.parse = none) (h : DateTimeOk t) (hy : 1000 ≤ t.date.y) (hz : Minutes t.tz)
    (hr : c.tzd = .require → t.tz ≠ none) (vapp eapp iapp : Val) (hv : ∀ v ∈ (dateTimeType c).validators, v vapp (.datetime t) = .ok ()) :
    ∃ s, (dateTimeType c).toPrimitive eapp (.datetime t) = .ok (.str s) ∧ (dateTimeType c).toNative iapp (.str s) = .ok (.datetime t) := by
  obtain ⟨z, h1, h2⟩ := parseTz_tzText hz
  refine ⟨String.ofList (localText t ++ z), by simp only [dateTimeType, dtPrimitive, h1], ?_⟩
  show dtNative c (.str _) = _
  simp only [dtNative, dtParse, hc, parse_localText h hy z t.tz h2]
  rw [convParsed_keeps h vapp (hv _ (by simp [dateTimeType])) hr]
  rfl

/-- **C51** for the default options: no conditions besides validity, the year and the offset. -/
theorem C51_default_round_trip (t : DateTime) (h : DateTimeOk t) (hy : 1000 ≤ t.date.y) (hz : Minutes t.tz) (eapp iapp : Val) :
    ∃ s, (dateTimeType {}).toPrimitive eapp (.datetime t) = .ok (.str s) ∧ (dateTimeType {}).toNative iapp (.str s) = .ok (.datetime t) := by
  refine C51_datetime_round_trip {} t rfl h hy hz (by simp) .none eapp iapp ?_
  intro v hv
  simp only [dateTimeType, List.mem_cons, List.not_mem_nil, or_false] at hv
  subst hv
  simp only [validateTz]
  cases t.tz <;> simp

/-- **C51** for `UTCDateTimeType`: every valid naive datetime from year 1000 on is exported with `Z` and read back. -/
theorem C51_utc_round_trip (t : DateTime) (h : DateTimeOk t) (hy : 1000 ≤ t.date.y) (hz : t.tz = none) (eapp iapp : Val) :
    ∃ s, utcDateTimeType.toPrimitive eapp (.datetime t) = .ok (.str s) ∧ utcDateTimeType.toNative iapp (.str s) = .ok (.datetime t) := by
  refine ⟨String.ofList (localText t ++ ['Z']), rfl, ?_⟩
  have e : ∀ v, utcDateTimeType.toNative iapp v = dtNative utcCfg v := fun _ => rfl
  rw [e]
  have hp : dtParse utcCfg (.str (String.ofList (localText t ++ ['Z']))) = .ok { t with tz := some 0 } := by
    simp only [dtParse, utcCfg, parse_localText h hy ['Z'] (some 0) rfl]
  rw [dtNative_parse (by nofun) hp]
  have h0 : DateTimeOk { t with tz := some 0 } := h
  have hz0 : zoned utcCfg { t with tz := some 0 } = .ok t := by
    rw [zoned_utc (c := utcCfg) (by decide) rfl (toUTC_zero h0 rfl), dropTz, if_pos (show utcCfg.drop = true from rfl), ← hz]
  rw [convParsed_zoned (o := 0) rfl, hz0]
  rfl

/-- **C51, what fails.**  Every datetime before the year 1000 is exported without padding, and its text is refused. -/
theorem C51_counterexample_early_years (t : DateTime) (hy : t.date.y < 1000) (hz : Minutes t.tz) (eapp iapp : Val) :
    ∃ s, (dateTimeType {}).toPrimitive eapp (.datetime t) = .ok (.str s) ∧ (dateTimeType {}).toNative iapp (.str s) = convErr "parse" := by
  obtain ⟨z, h1, h2⟩ := parseTz_tzText hz
  refine ⟨String.ofList (localText t ++ z), by simp only [dateTimeType, dtPrimitive, h1], ?_⟩
  have hf : parseFloat (localText t ++ z) = none := by
    unfold localText dateText
    simp only [List.append_assoc, List.cons_append]
    exact parseFloat_date (digits_natText _) _
  have hp : fromString (localText t ++ z) = none := by
    unfold fromString isoDate localText dateText
    simp only [List.append_assoc, List.cons_append]
    rw [takeDigits_short _ _ _ _ _ (natText_short hy) digitVal_dash]
  have e : ∀ v, (dateTimeType {}).toNative iapp v = dtNative {} v := fun _ => rfl
  rw [e]
  simp only [dtNative, dtParse, builtinParse, callFloat, String.toList_ofList, hf, Call.ofOpt, hp]
  rfl

/-! ## Values that come out of the field -/

/-- The parsers supplied by the user return real datetimes. -/
def DTCfg.Sane (c : DTCfg) : Prop := ∀ f, c.parse = some f → ∀ v t, f v = some t → DateTimeOk t

theorem fromString_ok {cs : List Char} {t : DateTime} (h : fromString cs = some t) : DateTimeOk t := by
  have mk : ∀ a b, mkDateTime a = some b → DateTimeOk b := by
    intro a b hab
    unfold mkDateTime at hab
    split at hab
    · cases hab; assumption
    · cases hab
  unfold fromString at h
  repeat' split at h
  all_goals first | cases h | exact mk _ _ h

theorem fromTimestamp_ok {f : PyFloat} {t : DateTime} (h : fromTimestamp f = .val t) : DateTimeOk t ∧ t.tz = some 0 := by
  unfold fromTimestamp at h
  split at h
  · unfold utcAt at h
    split at h
    · rename_i hu
      cases h
      have := ofUs_spec hu
      exact this.2
    · cases h
  · cases h
  · cases h

theorem dtParse_ok {c : DTCfg} (hs : c.Sane) {v : Val} {t : DateTime} (h : dtParse c v = .ok t) : DateTimeOk t := by
  unfold dtParse at h
  cases hc : c.parse with
  | some f =>
    simp only [hc] at h
    cases hf : f v with
    | none => simp [hf, convErr] at h
    | some t' => simp only [hf] at h; cases h; exact hs f hc v _ hf
  | none =>
    simp only [hc] at h
    unfold builtinParse at h
    split at h
    · rename_i f _
      cases ht : fromTimestamp f with
      | val t' => simp only [ht, TD.result] at h; cases h; exact (fromTimestamp_ok ht).1
      | bad => simp [ht, TD.result, convErr] at h
      | overflow => simp [ht, TD.result] at h
    · cases h
    · split at h
      · split at h
        · rename_i hf
          cases h
          exact fromString_ok hf
        · cases h
      · cases h
      · cases h

theorem toUTC_spec {t u : DateTime} {o : Int} (hz : t.tz = some o) (h : toUTC t = .ok u) :
    u.tz = some 0 ∧ u.localUs = t.instant ∧ DateTimeOk u := by
  simp only [toUTC, hz] at h
  split at h
  · cases hu : ofUs t.instant (some 0) with
    | none => simp [hu] at h
    | some u' =>
      simp only [hu] at h
      cases h
      have := ofUs_spec hu
      exact ⟨this.2.2, this.1, this.2.1⟩
  · cases h

/-- What the handling of a zoned value can give. -/
theorem zoned_spec {c : DTCfg} {t u : DateTime} {o : Int} (hz : t.tz = some o) (h : zoned c t = .ok u) :
    c.tzd ≠ .reject ∧ (c.drop = true → u.tz = none) ∧ (c.drop = false → u.tz = some (if c.convert then 0 else o)) ∧
    (c.convert = true → u.localUs = t.instant) ∧ (c.convert = false → u.localUs = t.localUs) ∧ (DateTimeOk t → DateTimeOk u) := by
  unfold zoned at h
  split at h
  · cases h
  · rename_i hr
    cases hc : c.convert with
    | false =>
      simp only [hc, convTz] at h
      cases h
      cases hd : c.drop <;> simp [dropTz, hz, hr, DateTime.localUs]
      · intro h'; exact h'
    | true =>
      simp only [hc, convTz, if_true] at h
      cases hu : toUTC t with
      | error e => simp [hu] at h
      | ok u' =>
        simp only [hu] at h
        cases h
        obtain ⟨h1, h2, h3⟩ := toUTC_spec hz hu
        cases hd : c.drop <;> simp [dropTz, h1, hr, DateTime.localUs] <;> refine ⟨by rw [← h2]; rfl, ?_⟩ <;> intro _ <;> exact h3

theorem naiveObject_spec {c : DTCfg} {t u : DateTime} (hz : t.tz = none) (h : naiveObject c t = .ok u) :
    u.localUs = t.localUs ∧ (DateTimeOk t → DateTimeOk u) ∧ (c.drop = true → u.tz = none) ∧ (c.drop = false → c.tzd ≠ .require) ∧
    (c.drop = false → u.tz = if c.tzd = .utc then some 0 else none) := by
  unfold naiveObject at h
  split at h
  · rename_i hd; cases h; simp [hd, hz]
  · rename_i hd
    split at h
    · cases h
    · rename_i hr
      split at h
      · rename_i hu
        cases h
        refine ⟨rfl, fun h => h, fun h => absurd h hd, fun _ => hr, fun _ => by simp [hu]⟩
      · rename_i hu
        cases h
        refine ⟨rfl, fun h => h, fun h => absurd h hd, fun _ => hr, fun _ => by simp [hu, hz]⟩

theorem naiveParsed_spec {c : DTCfg} {t u : DateTime} (hz : t.tz = none) (h : naiveParsed c t = .ok u) :
    u.localUs = t.localUs ∧ (DateTimeOk t → DateTimeOk u) ∧ (c.drop = true → u.tz = none) ∧ c.tzd ≠ .require ∧
    (c.drop = false → u.tz = if c.tzd = .utc then some 0 else none) := by
  unfold naiveParsed at h
  split at h
  · cases h
  · rename_i hr
    split at h
    · rename_i hu
      cases h
      refine ⟨rfl, fun h => h, fun h => ?_, hr, fun _ => by simp [hu]⟩
      rw [hu.2] at h; cases h
    · rename_i hu
      cases h
      refine ⟨rfl, fun h => h, fun _ => hz, hr, fun hd => ?_⟩
      rw [hz, if_neg (fun he => hu ⟨he, hd⟩)]

/-! ## C52: the zone policy -/

/-- Zones a field may hold according to its options. -/
def Policy (c : DTCfg) (tz : Option Int) : Prop :=
  (c.drop = true → tz = none) ∧
  (c.tzd = .reject → tz = none) ∧
  (c.drop = false → (c.tzd = .require ∨ c.tzd = .utc) → tz ≠ none) ∧
  (c.convert = true → ∀ o, tz = some o → o = 0)

theorem policy_valid {c : DTCfg} {t : DateTime} (h : Policy c t.tz) (app : Val) : validateTz c app (.datetime t) = .ok () := by
  obtain ⟨h1, h2, h3, h4⟩ := h
  simp only [validateTz]
  cases hz : t.tz with
  | none =>
    simp only
    split
    · rfl
    · rename_i hd
      have hd' : c.drop = false := by simpa using hd
      rw [if_neg (fun he => h3 hd' (Or.inl he) hz), if_neg (fun he => h3 hd' (Or.inr he) hz)]
  | some o =>
    simp only
    rw [if_neg (fun he => by rw [h1 he] at hz; cases hz), if_neg (fun he => by rw [h2 he] at hz; cases hz),
      if_neg (fun he => he.2 (h4 he.1 o hz))]

theorem zoned_policy {c : DTCfg} {t u : DateTime} {o : Int} (hz : t.tz = some o) (h : zoned c t = .ok u) : Policy c u.tz := by
  obtain ⟨h1, h2, h3, -, -, -⟩ := zoned_spec hz h
  refine ⟨h2, fun hr => absurd hr h1, fun hd _ => by rw [h3 hd]; simp, fun hc o' ho => ?_⟩
  cases hd : c.drop with
  | true => rw [h2 hd] at ho; cases ho
  | false => rw [h3 hd, hc] at ho; simpa using ho.symm

theorem convObject_policy {c : DTCfg} {t u : DateTime} (h : convObject c t = .ok u) : Policy c u.tz := by
  unfold convObject at h
  cases hz : t.tz with
  | some o => simp only [hz, Option.isNone_some] at h; exact zoned_policy hz h
  | none =>
    simp only [hz, Option.isNone_none, if_true] at h
    obtain ⟨-, -, h3, h4, h5⟩ := naiveObject_spec hz h
    cases hd : c.drop with
    | true => refine ⟨h3, fun _ => h3 hd, fun hf => (by rw [hd] at hf; cases hf), fun _ o ho => ?_⟩; rw [h3 hd] at ho; cases ho
    | false =>
      refine ⟨h3, fun hr => by rw [h5 hd, hr]; rfl, fun _ hru => ?_, fun _ o ho => ?_⟩
      · rcases hru with hr | hu
        · exact absurd hr (h4 hd)
        · rw [h5 hd, if_pos hu]; simp
      · rw [h5 hd] at ho
        split at ho
        · simpa using ho.symm
        · cases ho

theorem convParsed_policy {c : DTCfg} {t u : DateTime} (h : convParsed c t = .ok u) : Policy c u.tz := by
  unfold convParsed at h
  cases hz : t.tz with
  | some o => simp only [hz, Option.isNone_some] at h; exact zoned_policy hz h
  | none =>
    simp only [hz, Option.isNone_none, if_true] at h
    obtain ⟨-, -, h3, h4, h5⟩ := naiveParsed_spec hz h
    cases hd : c.drop with
    | true => refine ⟨h3, fun _ => h3 hd, fun hf => (by rw [hd] at hf; cases hf), fun _ o ho => ?_⟩; rw [h3 hd] at ho; cases ho
    | false =>
      refine ⟨h3, fun hr => by rw [h5 hd, hr]; rfl, fun _ hru => ?_, fun _ o ho => ?_⟩
      · rcases hru with hr | hu
        · exact absurd hr h4
        · rw [h5 hd, if_pos hu]; simp
      · rw [h5 hd] at ho
        split at ho
        · simpa using ho.symm
        · cases ho

/-- A successful conversion either normalised a datetime object or a parsed one. -/
theorem dtNative_cases {c : DTCfg} {v w : Val} (h : dtNative c v = .ok w) :
    ∃ u, w = .datetime u ∧ ((∃ t, v = .datetime t ∧ convObject c t = .ok u) ∨ (∃ t, dtParse c v = .ok t ∧ convParsed c t = .ok u)) := by
  unfold dtNative at h
  split at h
  · rename_i t
    cases hu : convObject c t with
    | error e => simp [hu, toVal] at h
    | ok u => simp only [hu, toVal] at h; cases h; exact ⟨u, rfl, Or.inl ⟨t, rfl, hu⟩⟩
  · cases hp : dtParse c v with
    | error e => simp [hp] at h
    | ok t =>
      simp only [hp] at h
      cases hu : convParsed c t with
      | error e => simp [hu, toVal] at h
      | ok u => simp only [hu, toVal] at h; cases h; exact ⟨u, rfl, Or.inr ⟨t, rfl, hu⟩⟩

/-- **C52.**  For every combination of `tzd`, `convert_tz`, `drop_tzinfo` and parser, and every input: a successful conversion yields a
datetime whose zone obeys the options, and which the field's own validation accepts. -/
theorem C52_converted_obeys_policy (c : DTCfg) (v w : Val) (iapp vapp : Val) (h : (dateTimeType c).toNative iapp v = .ok w) :
    ∃ t, w = .datetime t ∧ Policy c t.tz ∧ ∀ f ∈ (dateTimeType c).validators, f vapp w = .ok () := by
  obtain ⟨u, rfl, hu⟩ := dtNative_cases (show dtNative c v = .ok w from h)
  have hp : Policy c u.tz := by
    rcases hu with ⟨t, -, ht⟩ | ⟨t, -, ht⟩
    · exact convObject_policy ht
    · exact convParsed_policy ht
  refine ⟨u, rfl, hp, ?_⟩
  intro f hf
  simp only [dateTimeType, List.mem_cons, List.not_mem_nil, or_false] at hf
  subst hf
  exact policy_valid hp vapp

/-- **C52**, the converse for values: validation accepts a datetime only if its zone obeys the options. -/
theorem C52_validation_is_the_policy (c : DTCfg) (t : DateTime) (vapp : Val) :
    validateTz c vapp (.datetime t) = .ok () ↔ Policy c t.tz := by
  refine ⟨fun hv => ?_, fun h => policy_valid h vapp⟩
  simp only [validateTz] at hv
  cases hz : t.tz with
  | none =>
    simp only [hz] at hv
    refine ⟨fun _ => rfl, fun _ => rfl, fun hd hru => ?_, fun _ o ho => by cases ho⟩
    rw [hd] at hv
    simp only [Bool.false_eq_true, if_false] at hv
    rcases hru with hr | hu
    · rw [if_pos hr] at hv; cases hv
    · rw [hu] at hv; cases hv
  | some o =>
    simp only [hz] at hv
    split at hv
    · cases hv
    · rename_i hd
      split at hv
      · cases hv
      · rename_i hr
        split at hv
        · cases hv
        · rename_i hc
          refine ⟨fun h => absurd h hd, fun h => absurd h hr, fun _ _ => by simp, fun h o' ho => ?_⟩
          cases ho
          by_contra hne
          exact hc ⟨h, hne⟩

/-- **C52.**  `tzd='reject'` refuses every zoned datetime object, every text of a zoned datetime and every timestamp. -/
theorem C52_reject_refuses_zoned (c : DTCfg) (hc : c.tzd = .reject) (iapp : Val) :
    (∀ t : DateTime, t.tz ≠ none → (dateTimeType c).toNative iapp (.datetime t) = convErr "tzd_reject") ∧
    (c.parse = none → ∀ t : DateTime, DateTimeOk t → 1000 ≤ t.date.y → Minutes t.tz → t.tz ≠ none → ∀ s,
      (dateTimeType {}).toPrimitive iapp (.datetime t) = .ok (.str s) → (dateTimeType c).toNative iapp (.str s) = convErr "tzd_reject") ∧
    (c.parse = none → ∀ f : PyFloat, ∃ e, (dateTimeType c).toNative iapp (.flt f) = .error e) := by
  refine ⟨?_, ?_, ?_⟩
  · intro t ht
    show dtNative c (.datetime t) = _
    cases hz : t.tz with
    | none => exact absurd hz ht
    | some o => simp [dtNative, convObject, hz, zoned, hc, toVal, convErr]
  · intro hp t h1 h2 h3 h4 s hs
    obtain ⟨z, hz1, hz2⟩ := parseTz_tzText h3
    simp only [dateTimeType, dtPrimitive, hz1] at hs
    cases hs
    show dtNative c (.str _) = _
    simp only [dtNative, dtParse, hp, parse_localText h1 h2 z t.tz hz2]
    cases hz : t.tz with
    | none => exact absurd hz h4
    | some o => simp [convParsed, zoned, hc, toVal, convErr]
  · intro hp f
    show ∃ e, dtNative c (.flt f) = .error e
    simp only [dtNative, dtParse, hp, builtinParse, callFloat]
    cases ht : fromTimestamp f with
    | bad => exact ⟨_, rfl⟩
    | overflow => exact ⟨_, rfl⟩
    | val t =>
      have := (fromTimestamp_ok ht).2
      simp [TD.result, convParsed, this, zoned, hc, toVal, convErr]

/-- **C52.**  `tzd='require'` refuses the text of every naive datetime, and (unless zones are dropped) every naive object. -/
theorem C52_require_refuses_naive (c : DTCfg) (hc : c.tzd = .require) (iapp : Val) :
    (c.drop = false → ∀ t : DateTime, t.tz = none → (dateTimeType c).toNative iapp (.datetime t) = convErr "tzd_require") ∧
    (c.parse = none → ∀ t : DateTime, DateTimeOk t → 1000 ≤ t.date.y → t.tz = none → ∀ s,
      (dateTimeType {}).toPrimitive iapp (.datetime t) = .ok (.str s) → (dateTimeType c).toNative iapp (.str s) = convErr "parse_tzd_require") := by
  refine ⟨?_, ?_⟩
  · intro hd t ht
    show dtNative c (.datetime t) = _
    simp [dtNative, convObject, ht, naiveObject, hd, hc, toVal, convErr]
  · intro hp t h1 h2 h4 s hs
    simp only [dateTimeType, dtPrimitive, h4, tzText] at hs
    cases hs
    show dtNative c (.str _) = _
    simp only [dtNative, dtParse, hp, parse_localText h1 h2 [] none rfl]
    simp [convParsed, naiveParsed, hc, toVal, convErr]

/-! ## C53: conversion to UTC -/

/-- **C53.**  With `convert_tz`, a zoned datetime becomes a datetime of the same instant: with offset zero, or, if zones are dropped, naive
and reading the UTC clock. -/
theorem C53_same_instant (c : DTCfg) (hc : c.convert = true) (t : DateTime) (o : Int) (hz : t.tz = some o) (w : Val) (iapp : Val)
    (h : (dateTimeType c).toNative iapp (.datetime t) = .ok w) :
    ∃ u, w = .datetime u ∧ u.instant = t.instant ∧ u.tz = (if c.drop then none else some 0) := by
  replace h : toVal (zoned c t) = .ok w := by
    have h' : dtNative c (.datetime t) = .ok w := h
    simpa [dtNative, convObject, hz] using h'
  cases hu : zoned c t with
  | error e => rw [hu] at h; cases h
  | ok u =>
    rw [hu] at h
    cases h
    obtain ⟨-, h2, h3, h4, -, -⟩ := zoned_spec hz hu
    refine ⟨u, rfl, ?_⟩
    cases hd : c.drop with
    | true => rw [← h4 hc]; simp [DateTime.instant, h2 hd]
    | false =>
      have := h3 hd
      rw [hc] at this
      rw [← h4 hc]
      simp [DateTime.instant, this]

/-- **C53** for text: the import with `convert_tz` of the text of a zoned datetime denotes the instant of that datetime. -/
theorem C53_same_instant_text (c : DTCfg) (hc : c.convert = true) (hp : c.parse = none) (t : DateTime) (o : Int) (hz : t.tz = some o)
    (ht : DateTimeOk t) (hy : 1000 ≤ t.date.y) (hm : Minutes t.tz) (s : String) (w : Val) (eapp iapp : Val)
    (hs : (dateTimeType {}).toPrimitive eapp (.datetime t) = .ok (.str s)) (h : (dateTimeType c).toNative iapp (.str s) = .ok w) :
    ∃ u, w = .datetime u ∧ u.instant = t.instant ∧ u.tz = (if c.drop then none else some 0) := by
  obtain ⟨z, hz1, hz2⟩ := parseTz_tzText hm
  simp only [dateTimeType, dtPrimitive, hz1] at hs
  cases hs
  refine C53_same_instant c hc t o hz w iapp ?_
  rw [← h]
  show dtNative c (.datetime t) = dtNative c (.str (String.ofList (localText t ++ z)))
  simp only [dtNative, dtParse, hp, parse_localText ht hy z t.tz hz2, convObject, convParsed]
  have : t.tz.isNone = false := by rw [hz]; rfl
  rw [this]
  rfl

/-- Converting to UTC succeeds for every valid datetime with a real offset whose instant lies in the years 1-9999. -/
theorem C53_converts (c : DTCfg) (hr : c.tzd ≠ .reject) (t : DateTime) (o : Int) (hz : t.tz = some o) (ho : o.natAbs < 86400)
    (h1 : (dayUs : Int) ≤ t.instant) (h2 : t.instant < (maxOrdinal + 1) * dayUs) (iapp : Val) :
    ∃ w, (dateTimeType c).toNative iapp (.datetime t) = .ok w := by
  show ∃ w, dtNative c (.datetime t) = .ok w
  simp only [dtNative, convObject, hz, Option.isNone_some, zoned, if_neg hr]
  cases hc : c.convert with
  | false => exact ⟨_, rfl⟩
  | true =>
    have : toUTC t = .ok (ofLocalUs t.instant.toNat (some 0)) := by
      simp only [toUTC, hz]
      rw [if_pos ho, ofUs, if_pos ⟨h1, h2⟩]
    simp only [convTz, this]
    exact ⟨_, rfl⟩

/-- **C53.**  Conversion is idempotent for every option: a converted value converts to itself. -/
theorem C53_idempotent (c : DTCfg) (hs : c.Sane) (v w : Val) (hv : ∀ t, v = .datetime t → DateTimeOk t) (iapp japp : Val)
    (h : (dateTimeType c).toNative iapp v = .ok w) : (dateTimeType c).toNative japp w = .ok w := by
  obtain ⟨u, rfl, hu⟩ := dtNative_cases (show dtNative c v = .ok w from h)
  have key : ∀ t, DateTimeOk t → ∀ o, t.tz = some o → zoned c t = .ok u → DateTimeOk u := by
    intro t ht o hz hu
    exact (zoned_spec hz hu).2.2.2.2.2 ht
  have hok : DateTimeOk u ∧ Policy c u.tz := by
    rcases hu with ⟨t, rfl, ht⟩ | ⟨t, hp, ht⟩
    · refine ⟨?_, convObject_policy ht⟩
      have h0 := hv t rfl
      unfold convObject at ht
      cases hz : t.tz with
      | some o => exact key t h0 o hz (by simpa [hz] using ht)
      | none => exact (naiveObject_spec hz (by simpa [hz] using ht)).2.1 h0
    · refine ⟨?_, convParsed_policy ht⟩
      have h0 := dtParse_ok hs hp
      unfold convParsed at ht
      cases hz : t.tz with
      | some o => exact key t h0 o hz (by simpa [hz] using ht)
      | none => exact (naiveParsed_spec hz (by simpa [hz] using ht)).2.1 h0
  show toVal (convObject c u) = _
  rw [convObject_keeps hok.1 .none (policy_valid hok.2 _)]
  rfl

/-- **C51.**  Whatever the input, a converted value is a valid datetime. -/
theorem C51_only_valid (c : DTCfg) (hs : c.Sane) (v w : Val) (hv : ∀ t, v = .datetime t → DateTimeOk t) (iapp : Val)
    (h : (dateTimeType c).toNative iapp v = .ok w) : ∃ t, w = .datetime t ∧ DateTimeOk t := by
  obtain ⟨u, rfl, hu⟩ := dtNative_cases (show dtNative c v = .ok w from h)
  refine ⟨u, rfl, ?_⟩
  rcases hu with ⟨t, rfl, ht⟩ | ⟨t, hp, ht⟩
  · have h0 := hv t rfl
    unfold convObject at ht
    cases hz : t.tz with
    | some o => exact (zoned_spec hz (by simpa [hz] using ht)).2.2.2.2.2 h0
    | none => exact (naiveObject_spec hz (by simpa [hz] using ht)).2.1 h0
  · have h0 := dtParse_ok hs hp
    unfold convParsed at ht
    cases hz : t.tz with
    | some o => exact (zoned_spec hz (by simpa [hz] using ht)).2.2.2.2.2 h0
    | none => exact (naiveParsed_spec hz (by simpa [hz] using ht)).2.1 h0

/-! ## The hypotheses are met -/

/-- A datetime with a negative half-hour offset, in the last microsecond of a leap day. -/
def sampleDT : DateTime := ⟨⟨2024, 2, 29⟩, 23, 59, 59, 999999, some (-12600)⟩

example : DateTimeOk sampleDT ∧ Minutes sampleDT.tz := by
  refine ⟨by decide, ?_⟩
  rintro o ⟨⟩
  decide

/-- It is converted to the next day in UTC. -/
example : ofUs sampleDT.instant (some 0) = some ⟨⟨2024, 3, 1⟩, 3, 29, 59, 999999, some 0⟩ := by
  decide +kernel

/-- A trailing newline is accepted. -/
example : dtNative {} (.str "2024-02-29T00:00Z\n") = .ok (.datetime ⟨⟨2024, 2, 29⟩, 0, 0, 0, 0, some 0⟩) := by
  rfl

/-- Options whose policy is satisfiable: require a zone and convert. -/
example : Policy { tzd := .require, convert := true } (some 0) := by
  refine ⟨by decide, by decide, by decide, ?_⟩
  rintro - o ⟨⟩; rfl

end Verif.Types
