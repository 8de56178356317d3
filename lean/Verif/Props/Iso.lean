import Verif.Props.DateTime
import Verif.Spec
import Mathlib.Tactic.IntervalCases

/-!
# C84: exactly which texts are dates and datetimes
-/
namespace Verif.Types
open Verif.Py

/-! ## The grammar -/

/-- The text `ds` is `k` decimal digits (of any script) with the value `n`. -/
def Num (k : Nat) (ds : List Char) (n : Nat) : Prop :=
  ds.length = k ∧ ∃ vs, All2 (fun c v => digitVal c = some v) ds vs ∧ n = vs.foldl (fun a d => 10 * a + d) 0

/-- Seconds and microseconds: nothing, `:ss`, or `:ss.f` with one to six digits after a point or comma. -/
inductive SecondsText : List Char → Nat → Nat → Prop
  | none : SecondsText [] 0 0
  | whole {ds s} : Num 2 ds s → SecondsText (':' :: ds) s 0
  | frac {ds s p fs k f} : Num 2 ds s → p = '.' ∨ p = ',' → 1 ≤ k → k ≤ 6 → Num k fs f →
      SecondsText (':' :: ds ++ p :: fs) s (f * 10 ^ (6 - k))

/-- Zone designator: nothing (naive), `Z`, or an offset `±hh`, `±hhmm`, `±hh:mm` or `±hh:` in seconds, with a plus, a hyphen or a minus sign. -/
inductive ZoneText : List Char → Option Int → Prop
  | none : ZoneText [] none
  | utc : ZoneText ['Z'] (some 0)
  | hours {c sg hs h colon} : c = '+' ∧ sg = 1 ∨ (c = '-' ∨ c = '−') ∧ sg = -1 → Num 2 hs h → colon = [] ∨ colon = [':'] →
      ZoneText (c :: hs ++ colon) (some (sg * (h * 3600 : Nat)))
  | minutes {c sg hs h colon ms m} : c = '+' ∧ sg = 1 ∨ (c = '-' ∨ c = '−') ∧ sg = -1 → Num 2 hs h → colon = [] ∨ colon = [':'] → Num 2 ms m →
      ZoneText (c :: hs ++ colon ++ ms) (some (sg * (h * 3600 + m * 60 : Nat)))

/-- The text names the datetime `t`: `YYYY-MM-DD`, `T` or a blank, `hh:mm`, seconds, zone; a final newline is allowed. -/
inductive IsoText : List Char → DateTime → Prop
  | intro {ys y ms m ds d sep hs h mis mi secs s us zone tz nl} :
      Num 4 ys y → Num 2 ms m → Num 2 ds d → sep = 'T' ∨ sep = ' ' → Num 2 hs h → Num 2 mis mi → SecondsText secs s us → ZoneText zone tz →
      nl = [] ∨ nl = ['\n'] →
      IsoText (ys ++ '-' :: ms ++ '-' :: ds ++ sep :: hs ++ ':' :: mis ++ secs ++ zone ++ nl) ⟨⟨y, m, d⟩, h, mi, s, us, tz⟩

/-! ## Digits -/

theorem Num.nil {k n} (h : Num k [] n) : k = 0 ∧ n = 0 := by
  obtain ⟨h1, vs, h2, h3⟩ := h
  cases h2
  exact ⟨h1.symm, h3⟩

/-- The value with an accumulator. -/
theorem takeDigits_spec : ∀ (k a : Nat) (cs r : List Char) (n : Nat),
    takeDigits k a cs = some (n, r) ↔
      ∃ ds vs, cs = ds ++ r ∧ ds.length = k ∧ All2 (fun c v => digitVal c = some v) ds vs ∧ n = vs.foldl (fun a d => 10 * a + d) a := by
  intro k
  induction k with
  | zero =>
    intro a cs r n
    simp only [takeDigits, Option.some.injEq, Prod.mk.injEq]
    constructor
    · rintro ⟨rfl, rfl⟩; exact ⟨[], [], rfl, rfl, .nil, rfl⟩
    · rintro ⟨ds, vs, h1, h2, h3, h4⟩
      cases ds with
      | nil => cases h3; exact ⟨h4.symm, h1⟩
      | cons c ds => simp at h2
  | succ k ih =>
    intro a cs r n
    cases cs with
    | nil =>
      simp only [takeDigits]
      constructor
      · intro h; cases h
      · rintro ⟨ds, vs, h1, h2, h3, h4⟩
        have : ds = [] := (List.append_eq_nil_iff.1 h1.symm).1
        rw [this] at h2; simp at h2
    | cons c cs =>
      simp only [takeDigits]
      cases hc : digitVal c with
      | none =>
        simp only
        constructor
        · intro h; cases h
        · rintro ⟨ds, vs, h1, h2, h3, h4⟩
          cases h3 with
          | nil => simp at h2
          | cons h _ => simp only [List.cons_append, List.cons.injEq] at h1; rw [← h1.1, hc] at h; cases h
      | some d =>
        simp only
        rw [ih]
        constructor
        · rintro ⟨ds, vs, h1, h2, h3, h4⟩
          exact ⟨c :: ds, d :: vs, by rw [h1]; rfl, by simp [h2], .cons hc h3, h4⟩
        · rintro ⟨ds, vs, h1, h2, h3, h4⟩
          cases h3 with
          | nil => simp at h2
          | cons h ht =>
            simp only [List.cons_append, List.cons.injEq] at h1
            rw [← h1.1, hc] at h
            cases h
            exact ⟨_, _, h1.2, by simpa using h2, ht, h4⟩

theorem takeDigits_num (k : Nat) (cs r : List Char) (n : Nat) : takeDigits k 0 cs = some (n, r) ↔ ∃ ds, cs = ds ++ r ∧ Num k ds n := by
  rw [takeDigits_spec]
  constructor
  · rintro ⟨ds, vs, h1, h2, h3, h4⟩; exact ⟨ds, h1, h2, vs, h3, h4⟩
  · rintro ⟨ds, h1, h2, vs, h3, h4⟩; exact ⟨ds, vs, h1, h2, h3, h4⟩

/-- Up to `k` digits: the longest such prefix. -/
theorem takeUpTo_spec : ∀ (k a n : Nat) (cs : List Char), ∃ ds vs r, cs = ds ++ r ∧ ds.length ≤ k ∧ All2 (fun c v => digitVal c = some v) ds vs ∧
    takeUpTo k a n cs = (vs.foldl (fun a d => 10 * a + d) a, n + ds.length, r) ∧ (ds.length = k ∨ ∀ c r', r = c :: r' → digitVal c = none) := by
  intro k
  induction k with
  | zero => intro a n cs; exact ⟨[], [], cs, rfl, Nat.le_refl _, .nil, rfl, .inl rfl⟩
  | succ k ih =>
    intro a n cs
    cases cs with
    | nil => exact ⟨[], [], [], rfl, Nat.zero_le _, .nil, rfl, .inr (by intro c r' h; cases h)⟩
    | cons c cs =>
      cases hc : digitVal c with
      | none =>
        refine ⟨[], [], c :: cs, rfl, Nat.zero_le _, .nil, by simp [takeUpTo, hc], .inr ?_⟩
        intro c' r' h; cases h; exact hc
      | some d =>
        obtain ⟨ds, vs, r, h1, h2, h3, h4, h5⟩ := ih (10 * a + d) (n + 1) cs
        refine ⟨c :: ds, d :: vs, r, by rw [h1]; rfl, by simp; omega, .cons hc h3, ?_, ?_⟩
        · simp only [takeUpTo, hc, h4, List.foldl_cons, List.length_cons, Prod.mk.injEq, and_true, true_and]
          omega
        · rcases h5 with h5 | h5
          · exact .inl (by simp [h5])
          · exact .inr h5

/-- Two readings of a prefix of digits agree if neither can go on. -/
theorem digits_prefix : ∀ {ds ds' r r' : List Char} {vs vs' : List Nat} {k : Nat}, All2 (fun c v => digitVal c = some v) ds vs →
    All2 (fun c v => digitVal c = some v) ds' vs' → ds ++ r = ds' ++ r' → ds.length ≤ k → ds'.length ≤ k →
    (ds.length = k ∨ ∀ c t, r = c :: t → digitVal c = none) → (ds'.length = k ∨ ∀ c t, r' = c :: t → digitVal c = none) →
    ds = ds' ∧ vs = vs' ∧ r = r' := by
  intro ds ds' r r' vs vs' k h h'
  induction h generalizing ds' vs' k with
  | nil =>
    intro he h1 h2 h3 h4
    cases h' with
    | nil => exact ⟨rfl, rfl, he⟩
    | cons hc _ =>
      rcases h3 with h3 | h3
      · simp at h3 h2; omega
      · rw [List.nil_append, List.cons_append] at he
        rw [h3 _ _ he] at hc; cases hc
  | @cons c v ds vs hc ht ih =>
    intro he h1 h2 h3 h4
    cases h' with
    | nil =>
      rcases h4 with h4 | h4
      · simp at h4 h1; omega
      · rw [List.nil_append, List.cons_append] at he
        rw [h4 _ _ he.symm] at hc; cases hc
    | cons hc' ht' =>
      simp only [List.cons_append, List.cons.injEq] at he
      obtain ⟨rfl, he⟩ := he
      rw [hc] at hc'
      cases hc'
      cases k with
      | zero => simp at h1
      | succ k =>
        simp only [List.length_cons, Nat.add_le_add_iff_right, Nat.add_right_cancel_iff] at h1 h2 h3 h4
        obtain ⟨e1, e2, e3⟩ := ih ht' he h1 h2 h3 h4
        exact ⟨by rw [e1], by rw [e2], e3⟩

/-! ## The zone -/

theorem atEnd_iff (r : List Char) : atEnd r = true ↔ r = [] ∨ r = ['\n'] := by
  unfold atEnd
  split <;> simp_all

theorem isSign_iff (c : Char) : isSign c = true ↔ c = '+' ∨ c = '-' ∨ c = '−' := by
  simp [isSign, or_assoc]

theorem Num.two {ds n} (h : Num 2 ds n) : ∃ c d v w, ds = [c, d] ∧ digitVal c = some v ∧ digitVal d = some w ∧ n = 10 * v + w := by
  obtain ⟨h1, vs, h2, h3⟩ := h
  cases h2 with
  | nil => simp at h1
  | cons ha hr =>
    cases hr with
    | nil => simp at h1
    | cons hb hr =>
      cases hr with
      | nil => exact ⟨_, _, _, _, rfl, ha, hb, by simpa using h3⟩
      | cons _ _ => simp at h1

theorem takeDigits_of_num {k ds n} (h : Num k ds n) (r : List Char) : takeDigits k 0 (ds ++ r) = some (n, r) := (takeDigits_num _ _ _ _).2 ⟨ds, rfl, h⟩

theorem takeDigits_nl (k : Nat) (a : Nat) {nl : List Char} (h : nl = [] ∨ nl = ['\n']) : takeDigits (k + 1) a nl = none := by
  rcases h with rfl | rfl
  · rfl
  · show (match digitVal '\n' with | some d => takeDigits k (10 * a + d) [] | none => none) = none
    rw [show digitVal '\n' = none by decide]

theorem offsetSecs_eq {c : Char} {sg : Int} (h : c = '+' ∧ sg = 1 ∨ (c = '-' ∨ c = '−') ∧ sg = -1) (x y : Nat) :
    offsetSecs c x y = sg * (x * 3600 + y * 60 : Nat) := by
  unfold offsetSecs
  rcases h with ⟨rfl, rfl⟩ | ⟨rfl | rfl, rfl⟩ <;> simp <;> ring

theorem parseTz_iff (r : List Char) (tz : Option Int) : parseTz r = some tz ↔ ∃ z nl, r = z ++ nl ∧ ZoneText z tz ∧ (nl = [] ∨ nl = ['\n']) := by
  constructor
  · intro h
    unfold parseTz at h
    split at h
    · cases h; exact ⟨[], [], rfl, .none, .inl rfl⟩
    · cases h; exact ⟨[], ['\n'], rfl, .none, .inr rfl⟩
    · rename_i r
      by_cases he : atEnd r = true
      · rw [if_pos he] at h
        cases h
        exact ⟨['Z'], r, rfl, .utc, (atEnd_iff r).1 he⟩
      · rw [if_neg he] at h; cases h
    · rename_i c r _ _
      by_cases hs : isSign c = true
      · rw [if_pos hs] at h
        have hsg : ∃ sg : Int, c = '+' ∧ sg = 1 ∨ (c = '-' ∨ c = '−') ∧ sg = -1 := by
          rcases (isSign_iff c).1 hs with h | h
          · exact ⟨1, .inl ⟨h, rfl⟩⟩
          · exact ⟨-1, .inr ⟨h, rfl⟩⟩
        obtain ⟨sg, hsg⟩ := hsg
        cases ht : takeDigits 2 0 r with
        | none => rw [ht] at h; cases h
        | some p =>
          obtain ⟨hh, r2⟩ := p
          rw [ht] at h
          simp only at h
          obtain ⟨hs, rfl, hn⟩ := (takeDigits_num _ _ _ _).1 ht
          have hcol : ∃ colon, (colon = [] ∨ colon = [':']) ∧ r2 = colon ++ optColon r2 := by
            unfold optColon
            split
            · exact ⟨[':'], .inr rfl, rfl⟩
            · exact ⟨[], .inl rfl, rfl⟩
          obtain ⟨colon, hc1, hc2⟩ := hcol
          unfold tzMinutes at h
          cases hm : takeDigits 2 0 (optColon r2) with
          | none =>
            rw [hm] at h
            simp only at h
            by_cases he : atEnd (optColon r2) = true
            · rw [if_pos he] at h
              cases h
              refine ⟨c :: hs ++ colon, optColon r2, by rw [List.cons_append, List.cons_append, List.append_assoc, ← hc2], ?_, (atEnd_iff _).1 he⟩
              rw [offsetSecs_eq hsg]
              have := ZoneText.hours hsg hn hc1
              simpa using this
            · rw [if_neg he] at h; cases h
          | some p =>
            obtain ⟨mm, r3⟩ := p
            rw [hm] at h
            simp only at h
            obtain ⟨ms, hms, hmn⟩ := (takeDigits_num _ _ _ _).1 hm
            by_cases he : atEnd r3 = true
            · rw [if_pos he] at h
              cases h
              refine ⟨c :: hs ++ colon ++ ms, r3, ?_, ?_, (atEnd_iff _).1 he⟩
              · rw [List.append_assoc, List.append_assoc, ← hms, ← hc2]; rfl
              · rw [offsetSecs_eq hsg]
                exact ZoneText.minutes hsg hn hc1 hmn
            · rw [if_neg he] at h; cases h
      · rw [if_neg hs] at h; cases h
  · rintro ⟨z, nl, rfl, hz, hnl⟩
    have hend : atEnd nl = true := (atEnd_iff nl).2 hnl
    have sgn : ∀ {c : Char} {sg : Int}, (c = '+' ∧ sg = 1 ∨ (c = '-' ∨ c = '−') ∧ sg = -1) → ∀ r,
        parseTz (c :: r) = (match takeDigits 2 0 r with | some (h, r) => tzMinutes c h (optColon r) | none => none) := by
      rintro c sg (⟨rfl, -⟩ | ⟨rfl | rfl, -⟩) r <;> rfl
    cases hz with
    | none => rcases hnl with rfl | rfl <;> rfl
    | utc => show (if atEnd nl = true then some (some (0 : Int)) else none) = _; rw [if_pos hend]
    | @hours c sg hs hh colon hsg hn hcol =>
      rw [List.cons_append, List.cons_append, sgn hsg, List.append_assoc, takeDigits_of_num hn]
      have hoc : optColon (colon ++ nl) = nl := by
        rcases hcol with rfl | rfl
        · rcases hnl with rfl | rfl <;> rfl
        · rfl
      simp only [hoc, tzMinutes, takeDigits_nl 1 0 hnl, hend, if_true]
      rw [offsetSecs_eq hsg]
      simp
    | @minutes c sg hs hh colon ms m hsg hn hcol hm =>
      rw [List.cons_append, List.cons_append, List.cons_append, sgn hsg, List.append_assoc, List.append_assoc, takeDigits_of_num hn]
      have hoc : optColon (colon ++ (ms ++ nl)) = ms ++ nl := by
        rcases hcol with rfl | rfl
        · obtain ⟨a, b, v, w, rfl, ha, -, -⟩ := hm.two
          have : a ≠ ':' := by rintro rfl; rw [show digitVal ':' = none by decide] at ha; cases ha
          show optColon (a :: b :: nl) = _
          unfold optColon
          split
          · rename_i he; cases he; exact absurd rfl this
          · rfl
        · rfl
      simp only [hoc, tzMinutes, takeDigits_of_num hm, hend, if_true]
      rw [offsetSecs_eq hsg]

/-- What follows the seconds is no digit, no colon, and no point. -/
theorem zone_head {z nl : List Char} {tz} (hz : ZoneText z tz) (hnl : nl = [] ∨ nl = ['\n']) : ∀ c r, z ++ nl = c :: r →
    digitVal c = none ∧ c ≠ ':' ∧ c ≠ '.' ∧ c ≠ ',' := by
  intro c r h
  have sg : ∀ {c : Char} {s : Int}, (c = '+' ∧ s = 1 ∨ (c = '-' ∨ c = '−') ∧ s = -1) → digitVal c = none ∧ c ≠ ':' ∧ c ≠ '.' ∧ c ≠ ',' := by
    rintro c s (⟨rfl, -⟩ | ⟨rfl | rfl, -⟩) <;> decide
  cases hz with
  | none =>
    rcases hnl with rfl | rfl
    · cases h
    · cases h; decide
  | utc => cases h; decide
  | hours h1 _ _ => cases h; exact sg h1
  | minutes h1 _ _ _ => cases h; exact sg h1

/-! ## Seconds -/

theorem parseFrac_iff (cs : List Char) (us : Nat) (tz : Option Int) :
    ((parseFrac cs).1 = us ∧ parseTz (parseFrac cs).2 = some tz) ↔
      ∃ a z nl, cs = a ++ z ++ nl ∧ ZoneText z tz ∧ (nl = [] ∨ nl = ['\n']) ∧
        (a = [] ∧ us = 0 ∨ ∃ p fs k f, a = p :: fs ∧ (p = '.' ∨ p = ',') ∧ 1 ≤ k ∧ k ≤ 6 ∧ Num k fs f ∧ us = f * 10 ^ (6 - k)) := by
  constructor
  · rintro ⟨h1, h2⟩
    cases cs with
    | nil =>
      obtain ⟨z, nl, h3, h4, h5⟩ := (parseTz_iff _ _).1 h2
      exact ⟨[], z, nl, h3, h4, h5, .inl ⟨rfl, h1.symm⟩⟩
    | cons c r =>
      simp only [parseFrac] at h1 h2
      by_cases hc : c = '.' ∨ c = ','
      · rw [if_pos hc] at h1 h2
        obtain ⟨ds, vs, r', e1, e2, e3, e4, -⟩ := takeUpTo_spec 6 0 0 r
        rw [e4] at h1 h2
        simp only [Nat.zero_add] at h1 h2
        by_cases h0 : ds.length = 0
        · rw [if_pos h0] at h2
          obtain ⟨z, nl, h3, h4, h5⟩ := (parseTz_iff _ _).1 h2
          have := zone_head h4 h5 c r h3.symm
          rcases hc with h | h
          · exact absurd h this.2.2.1
          · exact absurd h this.2.2.2
        · rw [if_neg h0] at h1 h2
          obtain ⟨z, nl, h3, h4, h5⟩ := (parseTz_iff _ _).1 h2
          refine ⟨c :: ds, z, nl, ?_, h4, h5, .inr ⟨c, ds, ds.length, _, rfl, hc, by omega, e2, ⟨rfl, vs, e3, rfl⟩, h1.symm⟩⟩
          rw [e1, List.append_assoc, ← h3]; rfl
      · rw [if_neg hc] at h1 h2
        obtain ⟨z, nl, h3, h4, h5⟩ := (parseTz_iff _ _).1 h2
        exact ⟨[], z, nl, h3, h4, h5, .inl ⟨rfl, h1.symm⟩⟩
  · rintro ⟨a, z, nl, rfl, hz, hnl, h⟩
    have hp : parseTz (z ++ nl) = some tz := (parseTz_iff _ _).2 ⟨z, nl, rfl, hz, hnl⟩
    rcases h with ⟨rfl, rfl⟩ | ⟨p, fs, k, f, rfl, hpt, k1, k6, hn, rfl⟩
    · rw [List.nil_append]
      have hf : parseFrac (z ++ nl) = (0, z ++ nl) := by
        cases hzn : z ++ nl with
        | nil => rfl
        | cons c r =>
          have := zone_head hz hnl c r hzn
          simp only [parseFrac]
          rw [if_neg]
          rintro (h | h)
          · exact this.2.2.1 h
          · exact this.2.2.2 h
      rw [hf]
      exact ⟨rfl, hp⟩
    · obtain ⟨hl, vs, hv, rfl⟩ := hn
      obtain ⟨ds', vs', r', e1, e2, e3, e4, e5⟩ := takeUpTo_spec 6 0 0 (fs ++ (z ++ nl))
      obtain ⟨rfl, rfl, rfl⟩ := digits_prefix (k := 6) hv e3 e1 (by omega) e2 (.inr fun c t h => (zone_head hz hnl c t h).1) e5
      rw [List.append_assoc, List.cons_append]
      simp only [parseFrac]
      rw [if_pos hpt, e4]
      simp only [Nat.zero_add]
      rw [if_neg (by omega)]
      rw [hl]
      exact ⟨rfl, hp⟩

theorem parseSecs_iff (cs : List Char) (s us : Nat) (tz : Option Int) :
    ((parseSecs cs).1 = s ∧ (parseSecs cs).2.1 = us ∧ parseTz (parseSecs cs).2.2 = some tz) ↔
      ∃ a z nl, cs = a ++ z ++ nl ∧ SecondsText a s us ∧ ZoneText z tz ∧ (nl = [] ∨ nl = ['\n']) := by
  constructor
  · rintro ⟨h1, h2, h3⟩
    unfold parseSecs at h1 h2 h3
    split at h1
    · rename_i r
      cases ht : takeDigits 2 0 r with
      | none =>
        simp only [ht] at h3
        obtain ⟨z, nl, e1, e2, e3⟩ := (parseTz_iff _ _).1 h3
        exact absurd rfl (zone_head e2 e3 ':' r e1.symm).2.1
      | some p =>
        obtain ⟨s', r2⟩ := p
        simp only [ht] at h1 h2 h3
        subst h1
        obtain ⟨ds, rfl, hn⟩ := (takeDigits_num _ _ _ _).1 ht
        obtain ⟨a, z, nl, e1, e2, e3, e4⟩ := (parseFrac_iff _ _ _).1 ⟨h2, h3⟩
        rcases e4 with ⟨rfl, rfl⟩ | ⟨p, fs, k, f, rfl, hp, k1, k6, hf, rfl⟩
        · exact ⟨':' :: ds, z, nl, by rw [e1]; simp, .whole hn, e2, e3⟩
        · exact ⟨':' :: ds ++ p :: fs, z, nl, by rw [e1]; simp, .frac hn hp k1 k6 hf, e2, e3⟩
    · rename_i r hne
      have hr : ∀ t, cs ≠ ':' :: t := fun t h => hne t h
      have e : parseSecs cs = (0, 0, cs) := by
        unfold parseSecs
        split
        · exact absurd rfl (hr _)
        · rfl
      change (parseSecs cs).2.1 = us at h2
      change parseTz (parseSecs cs).2.2 = some tz at h3
      rw [e] at h2 h3
      obtain ⟨z, nl, e1, e2, e3⟩ := (parseTz_iff _ _).1 h3
      refine ⟨[], z, nl, e1, ?_, e2, e3⟩
      rw [← h1, ← h2]
      exact .none
  · rintro ⟨a, z, nl, rfl, hs, hz, hnl⟩
    have sec : ∀ r, parseSecs (':' :: r) = (match takeDigits 2 0 r with | some (s, r) => (s, (parseFrac r).1, (parseFrac r).2) | none => (0, 0, ':' :: r)) :=
      fun r => rfl
    cases hs with
    | none =>
      have e : parseSecs (z ++ nl) = (0, 0, z ++ nl) := by
        unfold parseSecs
        split
        · rename_i r he; exact absurd rfl (zone_head hz hnl ':' r he).2.1
        · rfl
      rw [List.nil_append, e]
      exact ⟨rfl, rfl, (parseTz_iff _ _).2 ⟨z, nl, rfl, hz, hnl⟩⟩
    | whole hn =>
      rw [List.cons_append, List.cons_append, sec, List.append_assoc, takeDigits_of_num hn]
      refine ⟨rfl, ?_⟩
      exact (parseFrac_iff _ _ _).2 ⟨[], z, nl, by simp, hz, hnl, .inl ⟨rfl, rfl⟩⟩
    | @frac ds s p fs k f hn hp k1 k6 hf =>
      rw [List.cons_append, List.cons_append, List.cons_append, sec, List.append_assoc, List.append_assoc, takeDigits_of_num hn]
      refine ⟨rfl, ?_⟩
      exact (parseFrac_iff _ _ _).2 ⟨p :: fs, z, nl, by simp, hz, hnl, .inr ⟨p, fs, k, f, rfl, hp, k1, k6, hf, rfl⟩⟩

/-! ## The whole text -/

theorem eat_iff (x : Char) (cs r : List Char) : eat x cs = some r ↔ cs = x :: r := by
  cases cs with
  | nil => simp [eat]
  | cons c cs =>
    simp only [eat]
    by_cases h : c = x
    · rw [if_pos h, h]; simp
    · rw [if_neg h]; simp [h]

theorem eatT_iff (cs r : List Char) : eatT cs = some r ↔ cs = 'T' :: r ∨ cs = ' ' :: r := by
  unfold eatT
  split
  · simp
  · simp
  · rename_i h1 h2
    constructor
    · intro h; cases h
    · rintro (rfl | rfl)
      · exact absurd rfl (h1 r)
      · exact absurd rfl (h2 r)

theorem isoDate_iff (cs r : List Char) (date : Date) : isoDate cs = some (date, r) ↔
    ∃ ys ms ds, cs = ys ++ '-' :: ms ++ '-' :: ds ++ r ∧ Num 4 ys date.y ∧ Num 2 ms date.m ∧ Num 2 ds date.d := by
  constructor
  · intro h
    unfold isoDate at h
    split at h
    · rename_i y r1 h1
      split at h
      · rename_i r2 h2
        split at h
        · rename_i m r3 h3
          split at h
          · rename_i r4 h4
            split at h
            · rename_i d r5 h5
              cases h
              obtain ⟨ys, rfl, e1⟩ := (takeDigits_num _ _ _ _).1 h1
              cases (eat_iff _ _ _).1 h2
              obtain ⟨ms, rfl, e2⟩ := (takeDigits_num _ _ _ _).1 h3
              cases (eat_iff _ _ _).1 h4
              obtain ⟨ds, rfl, e3⟩ := (takeDigits_num _ _ _ _).1 h5
              exact ⟨ys, ms, ds, by simp, e1, e2, e3⟩
            · cases h
          · cases h
        · cases h
      · cases h
    · cases h
  · rintro ⟨ys, ms, ds, rfl, h1, h2, h3⟩
    simp only [List.append_assoc, List.cons_append]
    simp only [isoDate, takeDigits_of_num h1, eat, if_true, takeDigits_of_num h2, takeDigits_of_num h3]

theorem isoClock_iff (cs r : List Char) (h mi : Nat) : isoClock cs = some (h, mi, r) ↔
    ∃ hs ms, cs = hs ++ ':' :: ms ++ r ∧ Num 2 hs h ∧ Num 2 ms mi := by
  constructor
  · intro h
    unfold isoClock at h
    split at h
    · rename_i y r1 h1
      split at h
      · rename_i r2 h2
        split at h
        · rename_i m r3 h3
          cases h
          obtain ⟨ys, rfl, e1⟩ := (takeDigits_num _ _ _ _).1 h1
          cases (eat_iff _ _ _).1 h2
          obtain ⟨ms, rfl, e2⟩ := (takeDigits_num _ _ _ _).1 h3
          exact ⟨ys, ms, by simp, e1, e2⟩
        · cases h
      · cases h
    · cases h
  · rintro ⟨hs, ms, rfl, h1, h2⟩
    simp only [List.append_assoc, List.cons_append]
    simp only [isoClock, takeDigits_of_num h1, eat, if_true, takeDigits_of_num h2]

theorem fromString_iff (cs : List Char) (t : DateTime) : fromString cs = some t ↔ IsoText cs t ∧ DateTimeOk t := by
  constructor
  · intro h
    unfold fromString at h
    split at h
    · rename_i date r h1
      split at h
      · rename_i r2 h2
        split at h
        · rename_i hh mi r3 h3
          split at h
          · rename_i tz h4
            unfold mkDateTime at h
            split at h
            · rename_i hok
              cases h
              refine ⟨?_, hok⟩
              obtain ⟨ys, ms, ds, rfl, e1, e2, e3⟩ := (isoDate_iff _ _ _).1 h1
              obtain ⟨hs, mis, rfl, e4, e5⟩ := (isoClock_iff _ _ _ _).1 h3
              obtain ⟨a, z, nl, e6, e7, e8, e9⟩ := (parseSecs_iff _ _ _ _).1 ⟨rfl, rfl, h4⟩
              have hsep : ∃ sep, (sep = 'T' ∨ sep = ' ') ∧ r = sep :: (hs ++ ':' :: mis ++ r3) := by
                rcases (eatT_iff _ _).1 h2 with rfl | rfl
                · exact ⟨'T', .inl rfl, rfl⟩
                · exact ⟨' ', .inr rfl, rfl⟩
              obtain ⟨sep, hsep, rfl⟩ := hsep
              have := IsoText.intro e1 e2 e3 hsep e4 e5 e7 e8 e9
              have e : ys ++ '-' :: ms ++ '-' :: ds ++ sep :: hs ++ ':' :: mis ++ a ++ z ++ nl =
                  ys ++ '-' :: ms ++ '-' :: ds ++ sep :: (hs ++ ':' :: mis ++ r3) := by rw [e6]; simp
              rw [e] at this
              exact this
            · cases h
          · cases h
        · cases h
      · cases h
    · cases h
  · rintro ⟨h, hok⟩
    cases h with
    | @intro ys y ms m ds d sep hs hh mis mi secs s us zone tz nl e1 e2 e3 hsep e4 e5 e7 e8 e9 =>
      have hd := (isoDate_iff (ys ++ '-' :: ms ++ '-' :: ds ++ (sep :: (hs ++ ':' :: mis ++ (secs ++ zone ++ nl)))) _ ⟨y, m, d⟩).2 ⟨ys, ms, ds, rfl, e1, e2, e3⟩
      have ht := (eatT_iff (sep :: (hs ++ ':' :: mis ++ (secs ++ zone ++ nl))) _).2 (by rcases hsep with rfl | rfl; exact .inl rfl; exact .inr rfl)
      have hc := (isoClock_iff (hs ++ ':' :: mis ++ (secs ++ zone ++ nl)) _ hh mi).2 ⟨hs, mis, rfl, e4, e5⟩
      obtain ⟨s1, s2, s3⟩ := (parseSecs_iff (secs ++ zone ++ nl) s us tz).2 ⟨secs, zone, nl, rfl, e7, e8, e9⟩
      have e : ys ++ '-' :: ms ++ '-' :: ds ++ sep :: hs ++ ':' :: mis ++ secs ++ zone ++ nl =
          ys ++ '-' :: ms ++ '-' :: ds ++ (sep :: (hs ++ ':' :: mis ++ (secs ++ zone ++ nl))) := by simp
      rw [e]
      simp only [fromString, hd, ht, hc, s1, s2, s3, mkDateTime]
      rw [if_pos hok]

/-! ## Dates -/

/-- The text of a month: `01`-`12`, or `1`-`9`, in ASCII digits. -/
def MonthText (ms : List Char) (m : Nat) : Prop :=
  (1 ≤ m ∧ m ≤ 9 ∧ (ms = [digit m] ∨ ms = ['0', digit m])) ∨ (10 ≤ m ∧ m ≤ 12 ∧ ms = ['1', digit (m - 10)])

/-- The text of a day: `01`-`31`, `1`-`9`, or ` 1`-` 9`; the second digit of `10`-`29` may be of any script. -/
def DayText (ds : List Char) (d : Nat) : Prop :=
  (1 ≤ d ∧ d ≤ 9 ∧ (ds = [digit d] ∨ ds = ['0', digit d] ∨ ds = [' ', digit d])) ∨
  (∃ c v, (ds = ['1', c] ∧ d = 10 + v ∨ ds = ['2', c] ∧ d = 20 + v) ∧ digitVal c = some v) ∨
  (ds = ['3', '0'] ∧ d = 30) ∨ (ds = ['3', '1'] ∧ d = 31)

theorem nonzero_digit {c : Char} : (isAsciiDigit c && c != '0') = true ↔ ∃ n, 1 ≤ n ∧ n ≤ 9 ∧ c = digit n ∧ c.toNat - 48 = n := by
  constructor
  · intro h
    simp only [Bool.and_eq_true, bne_iff_ne, ne_eq] at h
    have h1 := of_decide_eq_true h.1
    have h0 : c.toNat ≠ 48 := by
      intro h0
      apply h.2
      have := Char.ofNat_toNat c
      rw [h0] at this
      exact this.symm
    exact ⟨c.toNat - 48, by omega, by omega, eq_digit_of_ascii h.1, rfl⟩
  · rintro ⟨n, h1, h2, rfl, -⟩
    interval_cases n <;> decide

theorem strpMonth_iff (cs r : List Char) (m : Nat) : strpMonth cs = some (m, r) ↔ ∃ ms, cs = ms ++ '-' :: r ∧ MonthText ms m := by
  constructor
  · intro h
    unfold strpMonth at h
    split at h
    · cases h; exact ⟨['1', '0'], rfl, .inr ⟨by decide, by decide, rfl⟩⟩
    · cases h; exact ⟨['1', '1'], rfl, .inr ⟨by decide, by decide, rfl⟩⟩
    · cases h; exact ⟨['1', '2'], rfl, .inr ⟨by decide, by decide, rfl⟩⟩
    · rename_i c r'
      by_cases hc : (isAsciiDigit c && c != '0') = true
      · rw [if_pos hc] at h
        obtain ⟨n, h1, h2, h3, h4⟩ := nonzero_digit.1 hc
        rw [h4] at h
        cases h
        exact ⟨['0', c], rfl, .inl ⟨h1, h2, .inr (by rw [h3])⟩⟩
      · rw [if_neg hc] at h; cases h
    · rename_i c r' _
      by_cases hc : (isAsciiDigit c && c != '0') = true
      · rw [if_pos hc] at h
        obtain ⟨n, h1, h2, h3, h4⟩ := nonzero_digit.1 hc
        rw [h4] at h
        cases h
        exact ⟨[c], rfl, .inl ⟨h1, h2, .inl (by rw [h3])⟩⟩
      · rw [if_neg hc] at h; cases h
    · cases h
  · rintro ⟨ms, rfl, h⟩
    rcases h with ⟨h1, h2, h | h⟩ | ⟨h1, h2, h⟩
    · subst h; interval_cases m <;> rfl
    · subst h; interval_cases m <;> rfl
    · subst h; interval_cases m <;> rfl

theorem strpDay_iff (cs : List Char) (d : Nat) : strpDay cs = some d ↔ DayText cs d := by
  constructor
  · intro h
    unfold strpDay at h
    split at h
    · cases h; exact .inr (.inr (.inl ⟨rfl, rfl⟩))
    · cases h; exact .inr (.inr (.inr ⟨rfl, rfl⟩))
    · rename_i c
      obtain ⟨v, h1, h2⟩ := Option.map_eq_some_iff.1 h
      exact .inr (.inl ⟨c, v, .inl ⟨rfl, h2.symm⟩, h1⟩)
    · rename_i c
      obtain ⟨v, h1, h2⟩ := Option.map_eq_some_iff.1 h
      exact .inr (.inl ⟨c, v, .inr ⟨rfl, h2.symm⟩, h1⟩)
    all_goals try cases h
    all_goals
      rename_i c
      by_cases hc : (isAsciiDigit c && c != '0') = true
      · rw [if_pos hc] at h
        obtain ⟨n, h1, h2, h3, h4⟩ := nonzero_digit.1 hc
        rw [h4] at h
        cases h
        exact .inl ⟨h1, h2, by simp [h3]⟩
      · rw [if_neg hc] at h; cases h
  · rintro (⟨h1, h2, h | h | h⟩ | ⟨c, v, ⟨rfl, rfl⟩ | ⟨rfl, rfl⟩, hv⟩ | ⟨rfl, rfl⟩ | ⟨rfl, rfl⟩)
    · subst h; interval_cases d <;> rfl
    · subst h; interval_cases d <;> rfl
    · subst h; interval_cases d <;> rfl
    · simp only [strpDay, hv, Option.map_some]
    · simp only [strpDay, hv, Option.map_some]
    · rfl
    · rfl

theorem strpDate_iff (cs : List Char) (x : Date) : strpDate cs = some x ↔
    DateOk x ∧ ∃ ys ms ds, cs = ys ++ '-' :: ms ++ '-' :: ds ∧ Num 4 ys x.y ∧ MonthText ms x.m ∧ DayText ds x.d := by
  constructor
  · intro h
    unfold strpDate at h
    split at h
    · rename_i y r1 h1
      split at h
      · rename_i r2 h2
        split at h
        · rename_i m r3 h3
          split at h
          · rename_i d h4
            unfold mkDate at h
            split at h
            · rename_i hok
              cases h
              obtain ⟨ys, rfl, e1⟩ := (takeDigits_num _ _ _ _).1 h1
              cases (eat_iff _ _ _).1 h2
              obtain ⟨ms, rfl, e2⟩ := (strpMonth_iff _ _ _).1 h3
              exact ⟨hok, ys, ms, r3, by simp, e1, e2, (strpDay_iff _ _).1 h4⟩
            · cases h
          · cases h
        · cases h
      · cases h
    · cases h
  · rintro ⟨hok, ys, ms, ds, rfl, h1, h2, h3⟩
    have hm := (strpMonth_iff (ms ++ '-' :: ds) ds x.m).2 ⟨ms, rfl, h2⟩
    simp only [List.append_assoc, List.cons_append]
    simp only [strpDate, takeDigits_of_num h1, eat, if_true, hm, (strpDay_iff _ _).2 h3, mkDate]
    rw [if_pos hok]

/-- **C84, dates.**  `DateType` reads a text iff it is `Y-m-d` — four digits, a month and a day, each with or without a leading zero (the day also with
a leading blank), nothing before or after — and the calendar has that day; the value is that day, every other text is a `ConversionError`. -/
theorem C84_date_texts (s : String) (iapp : Val) :
    (∀ x : Date, (dateType).toNative iapp (.str s) = .ok (.date x) ↔
      DateOk x ∧ ∃ ys ms ds, s.toList = ys ++ '-' :: ms ++ '-' :: ds ∧ Num 4 ys x.y ∧ MonthText ms x.m ∧ DayText ds x.d) ∧
    ((∀ x, (dateType).toNative iapp (.str s) ≠ .ok (.date x)) → (dateType).toNative iapp (.str s) = convErr "parse") := by
  have e : (dateType).toNative iapp (.str s) = (match strpDate s.toList with | some d => .ok (.date d) | none => convErr "parse") := by
    show dateNative [] (.str s) = _
    simp only [dateNative, dateFormats, List.isEmpty_nil, if_true, firstSome]
    cases strpDate s.toList <;> rfl
  rw [e]
  refine ⟨fun x => ?_, fun h => ?_⟩
  · rw [← strpDate_iff]
    cases strpDate s.toList with
    | none => simp [convErr]
    | some d => simp
  · cases hd : strpDate s.toList with
    | none => rfl
    | some d => rw [hd] at h; exact absurd rfl (h d)

/-! ## Datetimes -/

theorem digitVal_range {c : Char} {d : Nat} (h : digitVal c = some d) : isAsciiDigit c = true ∨ 128 ≤ c.toNat := by
  by_cases h1 : isAsciiDigit c = true
  · exact .inl h1
  · right
    by_contra hlt
    have : digitVal c = none := by
      refine digitIn_none_of ?_
      intro z hz
      have h1 : ¬ (48 ≤ c.toNat ∧ c.toNat ≤ 57) := fun h => h1 (decide_eq_true h)
      simp only [zeros, List.mem_cons, List.not_mem_nil, or_false] at hz
      omega
    rw [this] at h; cases h

theorem toLower_digitVal {c : Char} {d : Nat} (h : digitVal c = some d) : c.toLower = c := by
  rcases digitVal_range h with h | h
  · exact toLower_digit c h
  · unfold Char.toLower
    split
    · rename_i hc
      exfalso
      have := hc.2
      have h2 : c.toNat ≤ 90 := this
      omega
    · rfl

/-- `float()` refuses every text that starts with a digit, further digits and a hyphen. -/
theorem parseFloat_digits {ds : List Char} {vs : List Nat} (hne : ds ≠ []) (hv : All2 (fun c v => digitVal c = some v) ds vs) (r : List Char) :
    parseFloat (ds ++ '-' :: r) = none := by
  have hds : ∀ c ∈ ds, ∃ v, digitVal c = some v := by
    clear hne
    induction hv with
    | nil => intro c hc; cases hc
    | cons h _ ih =>
      intro c hc
      rcases List.mem_cons.1 hc with rfl | hc
      · exact ⟨_, h⟩
      · exact ih c hc
  have hdo : digitsOf ds = some vs := by
    clear hne hds
    induction hv with
    | nil => rfl
    | cons h _ ih => rw [digitsOf, h, ih]
  obtain ⟨d0, ds', rfl⟩ := List.exists_cons_of_ne_nil hne
  obtain ⟨v0, hd0⟩ := hds d0 (by simp)
  have hne0 : ∀ c : Char, digitVal c = none → d0 ≠ c := by rintro c hc rfl; rw [hc] at hd0; cases hd0
  have hstrip : ∃ r', strip (d0 :: ds' ++ '-' :: r) = d0 :: ds' ++ '-' :: r' := by
    obtain ⟨pre, post, h, hpre, hpost⟩ := strip_spec (d0 :: ds' ++ '-' :: r)
    generalize strip (d0 :: ds' ++ '-' :: r) = mid at *
    cases pre with
    | cons c pre =>
      simp only [List.cons_append, List.cons.injEq] at h
      have := hpre c (by simp)
      rw [← h.1, not_space_of_digit hd0] at this
      cases this
    | nil =>
      rw [List.nil_append] at h
      have hnot : '-' ∉ post := fun hm => by have := hpost _ hm; rw [isSpace_dash] at this; cases this
      rcases List.append_eq_append_iff.1 h with ⟨x, h1, h2⟩ | ⟨x, h1, h2⟩
      · cases x with
        | nil => exact absurd (show '-' ∈ post by rw [List.nil_append] at h2; rw [← h2]; simp) hnot
        | cons c x =>
          simp only [List.cons_append, List.cons.injEq] at h2
          exact ⟨x, by rw [h1, h2.1]⟩
      · exact absurd (show '-' ∈ post by rw [h2]; simp) hnot
  have hdrop : ∀ (ds : List Char) (p : Bool) (r s : List Char), (∀ c ∈ ds, ∃ v, digitVal c = some v) → dropUnderscores p (ds ++ '-' :: r) = some s →
      ∃ r', s = ds ++ '-' :: r' := by
    intro ds
    induction ds with
    | nil =>
      intro p r s _ h
      rw [List.nil_append, dropUnderscores_cons (by decide), Option.map_eq_some_iff] at h
      obtain ⟨r', -, h⟩ := h
      exact ⟨r', h.symm⟩
    | cons c ds ih =>
      intro p r s hall h
      have hc : c ≠ '_' := by
        rintro rfl
        obtain ⟨v, hv⟩ := hall '_' (by simp)
        rw [digitVal_underscore] at hv; cases hv
      rw [List.cons_append, dropUnderscores_cons hc, Option.map_eq_some_iff] at h
      obtain ⟨s', h1, h2⟩ := h
      obtain ⟨r', hr⟩ := ih _ _ _ (fun c hc => hall c (by simp [hc])) h1
      exact ⟨r', by rw [← h2, hr]; rfl⟩
  unfold parseFloat
  obtain ⟨r1, h1⟩ := hstrip
  rw [h1]
  cases h2 : dropUnderscores false (d0 :: ds' ++ '-' :: r1) with
  | none => rfl
  | some s =>
    obtain ⟨r2, rfl⟩ := hdrop _ false r1 s hds h2
    have hs : sign (d0 :: ds' ++ '-' :: r2) = (false, d0 :: ds' ++ '-' :: r2) := by
      unfold sign
      split
      · rename_i he; simp only [List.cons_append, List.cons.injEq] at he; exact absurd he.1 (hne0 _ (by decide))
      · rename_i he; simp only [List.cons_append, List.cons.injEq] at he; exact absurd he.1 (hne0 _ (by decide))
      · rfl
    have hw : parseFloatAbs (d0 :: ds' ++ '-' :: r2) = none := by
      have hl : ∀ w : Char, ∀ ws, digitVal w = none → lower (d0 :: ds' ++ '-' :: r2) ≠ w :: ws := by
        intro w ws hw he
        simp only [List.cons_append, lower, List.map_cons, List.cons.injEq] at he
        rw [toLower_digitVal hd0] at he
        exact hne0 w hw he.1
      unfold parseFloatAbs
      rw [if_neg, if_neg]
      · have hsp : spanDigits (d0 :: ds' ++ '-' :: r2) = (vs, '-' :: r2) :=
          spanDigits_of hdo _ (by intro c r h; cases h; exact digitVal_dash)
        unfold parseNum
        rw [hsp]
        simp [fracPart, expPart]
      · exact hl 'n' _ (by decide)
      · intro hm
        simp only [infWords, List.mem_cons, List.not_mem_nil, or_false] at hm
        rcases hm with hm | hm
        · exact hl 'i' _ (by decide) hm
        · exact hl 'i' _ (by decide) hm
    simp only [hs, hw, Option.map_none]

/-- No text is both a datetime and a number. -/
theorem iso_not_float {cs : List Char} {t : DateTime} (h : IsoText cs t) : parseFloat cs = none := by
  cases h with
  | @intro ys y ms m ds d sep hs hh mis mi secs s us zone tz nl e1 e2 e3 hsep e4 e5 e7 e8 e9 =>
    obtain ⟨hl, vs, hv, -⟩ := e1
    have := parseFloat_digits (ds := ys) (by rintro rfl; simp at hl) hv (ms ++ '-' :: ds ++ sep :: hs ++ ':' :: mis ++ secs ++ zone ++ nl)
    simpa using this

theorem dtNative_str {c : DTCfg} (hp : c.parse = none) (s : String) (hf : parseFloat s.toList = none) :
    dtNative c (.str s) = (match fromString s.toList with | some t => toVal (convParsed c t) | none => convErr "parse") := by
  simp only [dtNative, dtParse, hp, builtinParse, callFloat, hf]
  cases fromString s.toList <;> rfl

/-- **C84, datetimes.**  A text that names a valid datetime — `YYYY-MM-DD`, `T` or a blank, `hh:mm`, optional seconds with a fraction of up to six
digits, optional zone — is read as that datetime: with a zone, or unless the field requires one, exactly as the datetime object itself would be. -/
theorem C84_datetime_texts (c : DTCfg) (hp : c.parse = none) (s : String) (t : DateTime) (h : IsoText s.toList t) (hok : DateTimeOk t) (iapp : Val) :
    (t.tz ≠ none ∨ c.tzd ≠ .require → (dateTimeType c).toNative iapp (.str s) = (dateTimeType c).toNative iapp (.datetime t)) ∧
    (t.tz = none → c.tzd = .require → (dateTimeType c).toNative iapp (.str s) = convErr "parse_tzd_require") := by
  have e : (dateTimeType c).toNative iapp (.str s) = toVal (convParsed c t) := by
    show dtNative c (.str s) = _
    rw [dtNative_str hp s (iso_not_float h), (fromString_iff _ _).2 ⟨h, hok⟩]
  rw [e]
  show _ ∧ _
  refine ⟨fun hor => ?_, fun h1 h2 => ?_⟩
  · show _ = toVal (convObject c t)
    unfold convParsed convObject
    cases hz : t.tz with
    | some o => rfl
    | none =>
      have hr : c.tzd ≠ .require := by rcases hor with h | h; exact absurd hz h; exact h
      simp only [Option.isNone_none, if_true, naiveParsed, naiveObject, if_neg hr]
      cases hd : c.drop <;> simp
  · simp [convParsed, naiveParsed, h1, h2, toVal, convErr]

/-- **C84, other texts.**  Every text that names no valid datetime and is no number is a `ConversionError`, for every combination of options. -/
theorem C84_other_texts (c : DTCfg) (hp : c.parse = none) (s : String) (h : ¬ ∃ t, IsoText s.toList t ∧ DateTimeOk t) (hf : parseFloat s.toList = none)
    (iapp : Val) : (dateTimeType c).toNative iapp (.str s) = convErr "parse" := by
  show dtNative c (.str s) = _
  rw [dtNative_str hp s hf]
  cases hs : fromString s.toList with
  | none => rfl
  | some t => exact absurd ⟨t, (fromString_iff _ _).1 hs⟩ h

/-- **C84, exactly.**  With the default options a text is read as a datetime iff it names that datetime, or is a number: then the seconds since
1970-01-01 UTC.  No text is both. -/
theorem C84_exactly (s : String) (t : DateTime) (iapp : Val) :
    (dateTimeType {}).toNative iapp (.str s) = .ok (.datetime t) ↔
      (IsoText s.toList t ∧ DateTimeOk t) ∨ ∃ f, parseFloat s.toList = some f ∧ (dateTimeType {}).toNative iapp (.flt f) = .ok (.datetime t) := by
  cases hf : parseFloat s.toList with
  | none =>
    have e : (dateTimeType {}).toNative iapp (.str s) = (match fromString s.toList with | some t => toVal (convParsed {} t) | none => convErr "parse") :=
      dtNative_str (c := {}) rfl s hf
    rw [e, ← fromString_iff]
    have hc : ∀ u, convParsed {} u = .ok u := by
      intro u
      unfold convParsed
      cases hz : u.tz with
      | none => rfl
      | some o => rfl
    cases hs : fromString s.toList with
    | none => simp [convErr]
    | some u => simp [hc, toVal]
  | some f =>
    have hn : ¬ IsoText s.toList t := fun h => by rw [iso_not_float h] at hf; cases hf
    have e : (dateTimeType {}).toNative iapp (.str s) = (dateTimeType {}).toNative iapp (.flt f) := by
      show dtNative {} (.str s) = dtNative {} (.flt f)
      simp only [dtNative, dtParse, builtinParse, callFloat, hf]
      rfl
    rw [e]
    simp [hn]

/-! ## The hypotheses are met -/

theorem num_two {a b : Nat} (ha : a < 10) (hb : b < 10) : Num 2 [digit a, digit b] (10 * a + b) :=
  ⟨rfl, [a, b], .cons (digitVal_digit a ha) (.cons (digitVal_digit b hb) .nil), by simp⟩

theorem iso_sample : IsoText "2024-02-29 23:59:07,5−03:30".toList ⟨⟨2024, 2, 29⟩, 23, 59, 7, 500000, some (-12600)⟩ := by
  have := IsoText.intro (ys := ['2', '0', '2', '4']) (y := 2024) (ms := ['0', '2']) (m := 2) (ds := ['2', '9']) (d := 29) (sep := ' ') (hs := ['2', '3']) (h := 23)
    (mis := ['5', '9']) (mi := 59) (secs := ':' :: ['0', '7'] ++ ',' :: ['5']) (s := 7) (us := 5 * 10 ^ (6 - 1)) (zone := '−' :: ['0', '3'] ++ [':'] ++ ['3', '0'])
    (tz := some (-1 * (3 * 3600 + 30 * 60 : Nat))) (nl := [])
    ⟨rfl, [2, 0, 2, 4], .cons rfl (.cons rfl (.cons rfl (.cons rfl .nil))), rfl⟩ (num_two (a := 0) (b := 2) (by decide) (by decide))
    (num_two (a := 2) (b := 9) (by decide) (by decide)) (.inr rfl) (num_two (a := 2) (b := 3) (by decide) (by decide))
    (num_two (a := 5) (b := 9) (by decide) (by decide))
    (.frac (num_two (a := 0) (b := 7) (by decide) (by decide)) (.inr rfl) (by decide) (by decide) ⟨rfl, [5], .cons rfl .nil, rfl⟩)
    (.minutes (.inr ⟨.inr rfl, rfl⟩) (num_two (a := 0) (b := 3) (by decide) (by decide)) (.inr rfl) (num_two (a := 3) (b := 0) (by decide) (by decide)))
    (.inl rfl)
  exact this

example : (dateTimeType {}).toNative .none (.str "2024-02-29 23:59:07,5−03:30") = .ok (.datetime ⟨⟨2024, 2, 29⟩, 23, 59, 7, 500000, some (-12600)⟩) :=
  (C84_exactly _ _ _).2 (.inl ⟨iso_sample, by decide⟩)

example : (dateType).toNative .none (.str "2024-2- 9") = .ok (.date ⟨2024, 2, 9⟩) :=
  ((C84_date_texts "2024-2- 9" .none).1 ⟨2024, 2, 9⟩).2 ⟨by decide, ['2', '0', '2', '4'], ['2'], [' ', '9'], rfl,
    ⟨rfl, [2, 0, 2, 4], .cons rfl (.cons rfl (.cons rfl (.cons rfl .nil))), rfl⟩, .inl ⟨by decide, by decide, .inl rfl⟩,
    .inl ⟨by decide, by decide, .inr (.inr rfl)⟩⟩

end Verif.Types
