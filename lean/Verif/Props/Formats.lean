import Verif.Py.Strptime
import Verif.Props.DateTime

/-!
# C98: date formats of the user
-/
namespace Verif.Types
open Verif.Py

/-! ## Reading what was written -/

theorem rng_digit {x : Nat} (hx : x < 10) (lo hi : Nat) : rng lo hi (digit x) = if lo ≤ x ∧ x ≤ hi then some x else none := by
  unfold rng
  rw [digit_toNat x hx]
  by_cases h : lo ≤ x ∧ x ≤ hi
  · rw [if_pos h, if_pos (by omega)]
    congr 1
    omega
  · rw [if_neg h, if_neg (by omega)]

theorem cls2_two (a b : Char → Option Nat) {n : Nat} (r : List Char) (ha : a (digit (n / 10)) = some (n / 10)) (hb : b (digit (n % 10)) = some (n % 10)) :
    cls2 a b (two n ++ r) = [(n, r)] := by
  show (match a (digit (n / 10)), b (digit (n % 10)) with | some x, some y => [(10 * x + y, r)] | _, _ => []) = _
  rw [ha, hb]
  simp only [List.cons.injEq, Prod.mk.injEq, and_true]
  omega

theorem cls2_none (a b : Char → Option Nat) {n : Nat} (r : List Char) (h : a (digit (n / 10)) = none ∨ b (digit (n % 10)) = none) : cls2 a b (two n ++ r) = [] := by
  show (match a (digit (n / 10)), b (digit (n % 10)) with | some x, some y => [(10 * x + y, r)] | _, _ => []) = _
  rcases h with h | h
  · rw [h]
  · rw [h]; cases a (digit (n / 10)) <;> rfl

theorem rng_some {x : Nat} {lo hi : Nat} (hh : hi < 10) (h1 : lo ≤ x) (h2 : x ≤ hi) : rng lo hi (digit x) = some x := by
  rw [rng_digit (by omega) lo hi, if_pos ⟨h1, h2⟩]

theorem rng_none {x : Nat} {lo hi : Nat} (hx : x < 10) (_ : hi < 10) (h : x < lo ∨ hi < x) : rng lo hi (digit x) = none := by
  rw [rng_digit hx lo hi, if_neg (by omega)]

theorem monthAlts_two {n : Nat} (h1 : 1 ≤ n) (h2 : n ≤ 12) (r : List Char) : ∃ tl, monthAlts (two n ++ r) = (n, r) :: tl := by
  unfold monthAlts
  by_cases h : n < 10
  · rw [cls2_none (rng 1 1) (rng 0 2) r (.inl (rng_none (by omega) (by omega) (by omega))), cls2_two (rng 0 0) (rng 1 9) r (rng_some (by omega) (by omega) (by omega)) (rng_some (by omega) (by omega) (by omega))]
    exact ⟨_, rfl⟩
  · rw [cls2_two (rng 1 1) (rng 0 2) r (rng_some (by omega) (by omega) (by omega)) (rng_some (by omega) (by omega) (by omega))]
    exact ⟨_, rfl⟩

theorem dayAlts_two {n : Nat} (h1 : 1 ≤ n) (h2 : n ≤ 31) (r : List Char) : ∃ tl, dayAlts (two n ++ r) = (n, r) :: tl := by
  unfold dayAlts
  have hm : n % 10 < 10 := Nat.mod_lt _ (by omega)
  by_cases h : n < 10
  · rw [cls2_none (rng 3 3) (rng 0 1) r (.inl (rng_none (by omega) (by omega) (by omega))), cls2_none (rng 1 2) digitVal r (.inl (rng_none (by omega) (by omega) (by omega))),
      cls2_two (rng 0 0) (rng 1 9) r (rng_some (by omega) (by omega) (by omega)) (rng_some (by omega) (by omega) (by omega))]
    exact ⟨_, rfl⟩
  · by_cases h' : n < 30
    · rw [cls2_none (rng 3 3) (rng 0 1) r (.inl (rng_none (by omega) (by omega) (by omega))), cls2_two (rng 1 2) digitVal r (rng_some (by omega) (by omega) (by omega)) (digitVal_digit _ hm)]
      exact ⟨_, rfl⟩
    · rw [cls2_two (rng 3 3) (rng 0 1) r (rng_some (by omega) (by omega) (by omega)) (rng_some (by omega) (by omega) (by omega))]
      exact ⟨_, rfl⟩

theorem hourAlts_two {n : Nat} (h2 : n < 24) (r : List Char) : ∃ tl, hourAlts (two n ++ r) = (n, r) :: tl := by
  unfold hourAlts
  have hm : n % 10 < 10 := Nat.mod_lt _ (by omega)
  by_cases h : n < 20
  · rw [cls2_none (rng 2 2) (rng 0 3) r (.inl (rng_none (by omega) (by omega) (by omega))), cls2_two (rng 0 1) digitVal r (rng_some (by omega) (by omega) (by omega)) (digitVal_digit _ hm)]
    exact ⟨_, rfl⟩
  · rw [cls2_two (rng 2 2) (rng 0 3) r (rng_some (by omega) (by omega) (by omega)) (rng_some (by omega) (by omega) (by omega))]
    exact ⟨_, rfl⟩

theorem sixty_two {n : Nat} (h2 : n < 60) (r : List Char) : cls2 (rng 0 5) digitVal (two n ++ r) = [(n, r)] :=
  cls2_two (rng 0 5) digitVal r (rng_some (by omega) (by omega) (by omega)) (digitVal_digit _ (Nat.mod_lt _ (by omega)))

theorem minuteAlts_two {n : Nat} (h2 : n < 60) (r : List Char) : ∃ tl, minuteAlts (two n ++ r) = (n, r) :: tl := by
  unfold minuteAlts
  rw [sixty_two h2]
  exact ⟨_, rfl⟩

theorem secondAlts_two {n : Nat} (h2 : n < 60) (r : List Char) : ∃ tl, secondAlts (two n ++ r) = (n, r) :: tl := by
  unfold secondAlts
  rw [cls2_none (rng 6 6) (rng 0 1) r (.inl (rng_none (by omega) (by omega) (by omega))), sixty_two h2]
  exact ⟨_, rfl⟩

theorem takeAscii_digit (k a x : Nat) (hx : x < 10) (r : List Char) : takeAscii (k + 1) a (digit x :: r) = takeAscii k (10 * a + x) r := by
  rw [takeAscii, rng_some (by omega) (by omega) (by omega)]

theorem takeAscii_two (k a n : Nat) (hn : n < 100) (r : List Char) : takeAscii (k + 2) a (two n ++ r) = takeAscii k (100 * a + n) r := by
  show takeAscii (k + 1 + 1) a (digit (n / 10) :: digit (n % 10) :: r) = _
  rw [takeAscii_digit _ _ _ (by omega), takeAscii_digit _ _ _ (by omega)]
  congr 1
  omega

theorem microAlts_six {n : Nat} (hn : n < 1000000) (r : List Char) : ∃ tl, microAlts (six n ++ r) = (n, r) :: tl := by
  have h : takeAscii 6 0 (six n ++ r) = some (n, r) := by
    unfold six
    rw [List.append_assoc, List.append_assoc, takeAscii_two 4 _ _ (by omega), takeAscii_two 2 _ _ (by omega), takeAscii_two 0 _ _ (by omega), takeAscii]
    congr 2
    omega
  have h6 : microOf 6 (six n ++ r) = [(n, r)] := by
    unfold microOf
    rw [h]
    simp
  unfold microAlts
  rw [h6]
  exact ⟨_, rfl⟩

theorem sign_cases (o : Int) : (if o < 0 then '-' else '+' : Char) = '-' ∧ o < 0 ∨ (if o < 0 then '-' else '+' : Char) = '+' ∧ 0 ≤ o := by
  by_cases h : o < 0
  · exact .inl ⟨if_pos h, h⟩
  · exact .inr ⟨if_neg h, by omega⟩

theorem zoneSecs_abs (o : Int) (s : Nat) (hs : o.natAbs % 60 = s) :
    zoneSecs (if o < 0 then '-' else '+') (o.natAbs / 3600) (o.natAbs / 60 % 60) s = o := by
  unfold zoneSecs
  rcases sign_cases o with ⟨h, h'⟩ | ⟨h, h'⟩
  · rw [h, if_pos rfl]; omega
  · rw [h, if_neg (by decide)]; omega

/-- No seconds can be read here: the text does not go on with a digit or a colon. -/
def NoSeconds (r : List Char) : Prop := ∀ c r', r = c :: r' → c ≠ ':' ∧ rng 0 5 c = none

theorem colon_two (n : Nat) (r : List Char) (hn : n < 100) : colon (two n ++ r) = (false, two n ++ r) := by
  show colon (digit (n / 10) :: (digit (n % 10) :: r)) = _
  unfold colon
  split
  · rename_i r' h
    have h1 : digit (n / 10) = ':' := by injection h
    have h2 := digit_toNat (n / 10) (by omega)
    rw [h1] at h2
    have : (':' : Char).toNat = 58 := by decide
    omega
  · rfl

theorem zoneTail_head (sign : Char) (h m s : Nat) (hs : s < 60) (r : List Char) (hr : s = 0 → NoSeconds r) :
    ∃ tl, zoneTail sign h m false ((if s = 0 then [] else two s) ++ r) = (zoneSecs sign h m s, r) :: tl := by
  by_cases h0 : s = 0
  · subst h0
    have hr := hr rfl
    rw [if_pos rfl, List.nil_append]
    unfold zoneTail
    have hc : cls2 (rng 0 5) digitVal (colon r).2 = [] := by
      cases r with
      | nil => rfl
      | cons c r' =>
        obtain ⟨h1, h2⟩ := hr c r' rfl
        have : colon (c :: r') = (false, c :: r') := by
          unfold colon
          split
          · rename_i r'' h; exact absurd (by injection h) h1
          · rfl
        rw [this]
        cases r' with
        | nil => rfl
        | cons d r'' => show (match rng 0 5 c, digitVal d with | some x, some y => _ | _, _ => _) = _; rw [h2]
    rw [hc]
    exact ⟨[], rfl⟩
  · rw [if_neg h0]
    unfold zoneTail
    rw [colon_two s r (by omega), sixty_two hs]
    exact ⟨_, rfl⟩

theorem zoneAlts_tzText {o : Int} {w : List Char} (hw : tzText (some o) = some w) (r : List Char) (hr : o.natAbs % 60 = 0 → NoSeconds r) :
    o.natAbs < 86400 ∧ ∃ tl, zoneAlts (w ++ r) = (o, r) :: tl := by
  unfold tzText at hw
  dsimp only at hw
  by_cases ho : o.natAbs < 86400
  · rw [if_pos ho] at hw
    refine ⟨ho, ?_⟩
    have hw := Option.some.inj hw
    subst hw
    obtain ⟨tl, ht⟩ := zoneTail_head (if o < 0 then '-' else '+') (o.natAbs / 3600) (o.natAbs / 60 % 60) (o.natAbs % 60) (by omega) r hr
    rw [zoneSecs_abs o _ rfl] at ht
    have hz : zoneAlts ((if o < 0 then '-' else '+') :: (two (o.natAbs / 3600) ++ (two (o.natAbs / 60 % 60) ++ ((if o.natAbs % 60 = 0 then [] else two (o.natAbs % 60)) ++ r)))) =
        (cls2 (rng 0 5) digitVal (two (o.natAbs / 60 % 60) ++ ((if o.natAbs % 60 = 0 then [] else two (o.natAbs % 60)) ++ r))).flatMap
          fun p => zoneTail (if o < 0 then '-' else '+') (o.natAbs / 3600) p.1 false p.2 := by
      have hs : (if o < 0 then '-' else '+' : Char) = '+' ∨ (if o < 0 then '-' else '+' : Char) = '-' := by
        rcases sign_cases o with ⟨h, _⟩ | ⟨h, _⟩
        · exact .inr h
        · exact .inl h
      generalize (if o < 0 then '-' else '+' : Char) = c at hs ⊢
      have hzc : c ≠ 'Z' := by rcases hs with rfl | rfl <;> decide
      unfold zoneAlts
      split
      · rename_i h; injection h with h; exact absurd h hzc
      · rename_i h1 h2
        injection h2 with h3 h4
        subst h3 h4
        rw [if_pos hs, takeDigits_two (by omega)]
        dsimp only
        rw [colon_two _ _ (by omega)]
      · rename_i h; cases h
    refine ⟨tl, ?_⟩
    rw [show ((if o < 0 then '-' else '+') :: (two (o.natAbs / 3600) ++ two (o.natAbs / 60 % 60) ++ (if o.natAbs % 60 = 0 then [] else two (o.natAbs % 60)))) ++ r =
      (if o < 0 then '-' else '+') :: (two (o.natAbs / 3600) ++ (two (o.natAbs / 60 % 60) ++ ((if o.natAbs % 60 = 0 then [] else two (o.natAbs % 60)) ++ r))) by simp [List.append_assoc]]
    rw [hz, sixty_two (by omega)]
    rw [List.flatMap_cons, List.flatMap_nil, List.append_nil]
    exact ht
  · rw [if_neg ho] at hw; cases hw

theorem wsAlts_head : ∀ (cs : List Char) (r : List Char), cs ≠ [] → (∀ c ∈ cs, isSpace c = true) → (∀ c r', r = c :: r' → isSpace c = false) →
    ∃ tl, wsAlts (cs ++ r) = r :: tl
  | [], r, h, _, _ => absurd rfl h
  | [c], r, _, hc, hr => by
    have : wsAlts r = [] := by
      cases r with
      | nil => rfl
      | cons d r' => rw [wsAlts, hr d r' rfl]; rfl
    rw [List.cons_append, List.nil_append, wsAlts, hc c (List.mem_cons_self ..), if_pos rfl, this]
    exact ⟨[], rfl⟩
  | c :: d :: cs, r, _, hc, hr => by
    obtain ⟨tl, ht⟩ := wsAlts_head (d :: cs) r nofun (fun x hx => hc x (List.mem_cons_of_mem _ hx)) hr
    rw [List.cons_append, wsAlts, hc c (List.mem_cons_self ..), if_pos rfl, ht]
    exact ⟨_, rfl⟩

/-! ## Specification -/

/-- Components of `t` that a format shows; the others are those of 1900-01-01 00:00:00 without zone. -/
def shown (its : List Item) (t : DateTime) : DateTime where
  date := ⟨if .year ∈ its then t.date.y else if .year2 ∈ its then century (t.date.y % 100) else 1900,
    if .month ∈ its then t.date.m else 1, if .day ∈ its then t.date.d else 1⟩
  h := if .hour ∈ its then t.h else 0
  mi := if .minute ∈ its then t.mi else 0
  s := if .second ∈ its then t.s else 0
  us := if .micro ∈ its then t.us else 0
  tz := if .zone ∈ its then t.tz else none

/-- What may follow `%z`: nothing, white space, or a character that cannot be read as part of the offset. -/
def AfterZone : List Item → Prop
  | [] => True
  | .ws _ :: _ => True
  | .lit c :: _ => c ≠ ':' ∧ rng 0 5 c = none
  | _ => False

/-- What may follow white space. -/
def AfterSpace : List Item → Prop
  | .ws _ :: _ => False
  | _ => True

/-- Formats: characters that are no white space, white space in one piece, and no offset that runs into what follows. -/
def FormatOk : List Item → Prop
  | [] => True
  | .lit c :: its => isSpace c = false ∧ FormatOk its
  | .ws cs :: its => cs ≠ [] ∧ (∀ c ∈ cs, isSpace c = true) ∧ AfterSpace its ∧ FormatOk its
  | .zone :: its => AfterZone its ∧ FormatOk its
  | _ :: its => FormatOk its

/-- Values that a format can show without loss of position: the year has four digits, and there is a zone if the zone is shown. -/
def ShowOk (its : List Item) (t : DateTime) : Prop :=
  (.year ∈ its → 1000 ≤ t.date.y) ∧ (.zone ∈ its → t.tz ≠ none)

/-! ## The round trip -/

/-- The component of one piece, taken from `t`. -/
def put (t t0 : DateTime) : Item → DateTime
  | .year => { t0 with date := { t0.date with y := t.date.y } }
  | .year2 => { t0 with date := { t0.date with y := century (t.date.y % 100) } }
  | .month => { t0 with date := { t0.date with m := t.date.m } }
  | .day => { t0 with date := { t0.date with d := t.date.d } }
  | .hour => { t0 with h := t.h }
  | .minute => { t0 with mi := t.mi }
  | .second => { t0 with s := t.s }
  | .micro => { t0 with us := t.us }
  | .zone => { t0 with tz := t.tz }
  | .lit _ => t0
  | .ws _ => t0

theorem strftime_cons {t : DateTime} {it : Item} {its : List Item} {s : List Char} (h : strftime t (it :: its) = some s) :
    ∃ w r, writeItem t it = some w ∧ strftime t its = some r ∧ s = w ++ r := by
  rw [strftime] at h
  cases h1 : writeItem t it with
  | none => rw [h1] at h; cases h
  | some w =>
    cases h2 : strftime t its with
    | none => rw [h1, h2] at h; cases h
    | some r => rw [h1, h2] at h; cases h; exact ⟨w, r, rfl, rfl, rfl⟩

theorem not_space_digit (x : Nat) (hx : x < 10) : isSpace (digit x) = false := not_space_of_digit (digitVal_digit x hx)

theorem two_first {n : Nat} (hn : n < 100) (r : List Char) (c : Char) (r' : List Char) (h : two n ++ r = c :: r') : isSpace c = false := by
  have : digit (n / 10) = c := by injection h
  rw [← this]
  exact not_space_digit _ (by omega)

/-- The text of a format that does not start with white space does not start with white space. -/
theorem first_not_space {t : DateTime} (ht : DateTimeOk t) : ∀ {its : List Item} {s : List Char}, FormatOk its → ShowOk its t → AfterSpace its → strftime t its = some s →
    ∀ c r, s = c :: r → isSpace c = false := by
  intro its s hf hs ha h c r hc
  obtain ⟨⟨hy1, hy2, hm1, hm2, hd1, hd2⟩, hh, hmi, hse, hus⟩ := ht
  have hd3 := daysInMonth_le t.date.y t.date.m
  cases its with
  | nil => rw [strftime] at h; cases h; cases hc
  | cons it its =>
    obtain ⟨w, r0, h1, h2, rfl⟩ := strftime_cons h
    cases it with
    | year =>
      simp only [writeItem, Option.some.injEq] at h1
      subst h1
      rw [natText_four (hs.1 (List.mem_cons_self ..)) (by omega)] at hc
      have : digit (t.date.y / 1000) = c := by injection hc
      rw [← this]
      exact not_space_digit _ (by omega)
    | year2 => simp only [writeItem, Option.some.injEq] at h1; subst h1; exact two_first (by omega) _ _ _ hc
    | month => simp only [writeItem, Option.some.injEq] at h1; subst h1; exact two_first (by omega) _ _ _ hc
    | day => simp only [writeItem, Option.some.injEq] at h1; subst h1; exact two_first (by omega) _ _ _ hc
    | hour => simp only [writeItem, Option.some.injEq] at h1; subst h1; exact two_first (by omega) _ _ _ hc
    | minute => simp only [writeItem, Option.some.injEq] at h1; subst h1; exact two_first (by omega) _ _ _ hc
    | second => simp only [writeItem, Option.some.injEq] at h1; subst h1; exact two_first (by omega) _ _ _ hc
    | micro =>
      simp only [writeItem, Option.some.injEq] at h1
      subst h1
      unfold six at hc
      rw [List.append_assoc, List.append_assoc] at hc
      exact two_first (by omega) _ _ _ hc
    | zone =>
      rw [writeItem] at h1
      cases hz : t.tz with
      | none => exact absurd hz (hs.2 (List.mem_cons_self ..))
      | some o =>
        rw [hz] at h1
        unfold tzText at h1
        dsimp only at h1
        split at h1
        · have h1 := Option.some.inj h1
          subst h1
          have : (if o < 0 then '-' else '+' : Char) = c := by injection hc
          rw [← this]
          rcases sign_cases o with ⟨h, _⟩ | ⟨h, _⟩ <;> (rw [h]; decide)
        · cases h1
    | lit x =>
      simp only [writeItem, Option.some.injEq] at h1
      subst h1
      have : x = c := by injection hc
      rw [← this]
      exact hf.1
    | ws cs => exact ha.elim

theorem isSpace_rng {c : Char} (h : isSpace c = true) : c ≠ ':' ∧ rng 0 5 c = none := by
  refine ⟨fun hc => ?_, ?_⟩
  · subst hc; exact absurd h (by decide)
  · cases hr : rng 0 5 c with
    | none => rfl
    | some x =>
      unfold rng at hr
      split at hr
      · rename_i hc
        have : c = digit (c.toNat - 48) := by
          apply Char.ext
          apply UInt32.toNat_inj.1
          have h1 := digit_toNat (c.toNat - 48) (by omega)
          show c.toNat = (digit (c.toNat - 48)).toNat
          omega
        rw [this, not_space_digit _ (by omega)] at h
        cases h
      · cases hr

theorem read_written {t : DateTime} (ht : DateTimeOk t) (t0 : DateTime) {it : Item} {its : List Item} {w r : List Char} (hf : FormatOk (it :: its)) (hs : ShowOk (it :: its) t)
    (hw : writeItem t it = some w) (hr : strftime t its = some r) : ∃ tl, readItem t0 (w ++ r) it = (put t t0 it, r) :: tl := by
  have hmap : ∀ {α : Type} {l : List (α × List Char)} {a : α} {f : α × List Char → DateTime × List Char}, (∃ tl, l = (a, r) :: tl) → ∃ tl, l.map f = f (a, r) :: tl := by
    rintro α l a f ⟨tl, rfl⟩
    exact ⟨_, rfl⟩
  obtain ⟨⟨hy1, hy2, hm1, hm2, hd1, hd2⟩, hh, hmi, hse, hus⟩ := id ht
  have hd3 := daysInMonth_le t.date.y t.date.m
  have hs' : ShowOk its t := ⟨fun h => hs.1 (List.mem_cons_of_mem _ h), fun h => hs.2 (List.mem_cons_of_mem _ h)⟩
  cases it with
  | year =>
    simp only [writeItem, Option.some.injEq] at hw
    subst hw
    rw [natText_four (hs.1 (List.mem_cons_self ..)) (by omega)]
    refine hmap (l := digitAlts 4 _) ⟨[], ?_⟩
    unfold digitAlts
    rw [takeDigits_four (by omega)]
  | year2 =>
    simp only [writeItem, Option.some.injEq] at hw
    subst hw
    refine hmap (l := digitAlts 2 _) ⟨[], ?_⟩
    unfold digitAlts
    rw [takeDigits_two (by omega)]
  | month => simp only [writeItem, Option.some.injEq] at hw; subst hw; exact hmap (monthAlts_two hm1 hm2 r)
  | day => simp only [writeItem, Option.some.injEq] at hw; subst hw; exact hmap (dayAlts_two hd1 (by omega) r)
  | hour => simp only [writeItem, Option.some.injEq] at hw; subst hw; exact hmap (hourAlts_two hh r)
  | minute => simp only [writeItem, Option.some.injEq] at hw; subst hw; exact hmap (minuteAlts_two hmi r)
  | second => simp only [writeItem, Option.some.injEq] at hw; subst hw; exact hmap (secondAlts_two hse r)
  | micro => simp only [writeItem, Option.some.injEq] at hw; subst hw; exact hmap (microAlts_six hus r)
  | zone =>
    rw [writeItem] at hw
    cases hz : t.tz with
    | none => exact absurd hz (hs.2 (List.mem_cons_self ..))
    | some o =>
      rw [hz] at hw
      have hn : NoSeconds r := by
        intro c r' hc
        obtain ⟨h1, h2⟩ := hf
        cases its with
        | nil => rw [strftime] at hr; cases hr; cases hc
        | cons it its =>
          obtain ⟨w1, r1, e1, e2, rfl⟩ := strftime_cons hr
          cases it with
          | ws cs =>
            obtain ⟨e3, e4, -⟩ := h2
            simp only [writeItem, Option.some.injEq] at e1
            subst e1
            cases cs with
            | nil => exact absurd rfl e3
            | cons d cs =>
              have : d = c := by injection hc
              rw [← this]
              exact isSpace_rng (e4 d (List.mem_cons_self ..))
          | lit x =>
            simp only [writeItem, Option.some.injEq] at e1
            subst e1
            have : x = c := by injection hc
            rw [← this]
            exact h1
          | _ => exact h1.elim
      obtain ⟨-, tl, e⟩ := zoneAlts_tzText hw r fun _ => hn
      obtain ⟨tl, e⟩ := hmap (f := fun p : Int × List Char => ({ t0 with tz := some p.1 }, p.2)) ⟨tl, e⟩
      refine ⟨tl, ?_⟩
      rw [put, hz]
      exact e
  | lit x =>
    simp only [writeItem, Option.some.injEq] at hw
    subst hw
    refine ⟨[], ?_⟩
    show (litAlts x (x :: r)).map _ = _
    have hx : sameLetter x x = true := by simp [sameLetter]
    rw [litAlts, if_pos hx]
    rfl
  | ws cs =>
    simp only [writeItem, Option.some.injEq] at hw
    subst hw
    obtain ⟨h1, h2, h3, h4⟩ := hf
    obtain ⟨tl, e⟩ := wsAlts_head cs r h1 h2 (fun c r' hc => first_not_space ht h4 hs' h3 hr c r' hc)
    show ∃ tl, (wsAlts (cs ++ r)).map _ = _
    rw [e]
    exact ⟨_, rfl⟩

theorem formatOk_tail {it : Item} {its : List Item} (h : FormatOk (it :: its)) : FormatOk its := by
  cases it with
  | lit c => exact h.2
  | ws cs => exact h.2.2.2
  | zone => exact h.2
  | _ => exact h

theorem readItems_written {t : DateTime} (ht : DateTimeOk t) : ∀ (its : List Item) (t0 : DateTime) (s : List Char), FormatOk its → ShowOk its t → strftime t its = some s →
    readItems its t0 s = some (its.foldl (put t) t0, [])
  | [], t0, s, _, _, h => by rw [strftime] at h; cases h; rfl
  | it :: its, t0, s, hf, hs, h => by
    obtain ⟨w, r, h1, h2, rfl⟩ := strftime_cons h
    obtain ⟨tl, e⟩ := read_written ht t0 hf hs h1 h2
    have ih := readItems_written ht its (put t t0 it) r (formatOk_tail hf) ⟨fun h => hs.1 (List.mem_cons_of_mem _ h), fun h => hs.2 (List.mem_cons_of_mem _ h)⟩ h2
    rw [readItems, e, List.findSome?_cons]
    dsimp only
    rw [ih]
    rfl

/-! ### Components -/

theorem fold_month (t : DateTime) : ∀ (its : List Item) (t0 : DateTime), (its.foldl (put t) t0).date.m = if .month ∈ its then t.date.m else t0.date.m
  | [], t0 => by simp
  | it :: its, t0 => by
    rw [List.foldl_cons, fold_month t its]
    by_cases h : Item.month ∈ its
    · simp [h]
    · cases it <;> simp [h, put]

theorem fold_day (t : DateTime) : ∀ (its : List Item) (t0 : DateTime), (its.foldl (put t) t0).date.d = if .day ∈ its then t.date.d else t0.date.d
  | [], t0 => by simp
  | it :: its, t0 => by
    rw [List.foldl_cons, fold_day t its]
    by_cases h : Item.day ∈ its
    · simp [h]
    · cases it <;> simp [h, put]

theorem fold_hour (t : DateTime) : ∀ (its : List Item) (t0 : DateTime), (its.foldl (put t) t0).h = if .hour ∈ its then t.h else t0.h
  | [], t0 => by simp
  | it :: its, t0 => by
    rw [List.foldl_cons, fold_hour t its]
    by_cases h : Item.hour ∈ its
    · simp [h]
    · cases it <;> simp [h, put]

theorem fold_minute (t : DateTime) : ∀ (its : List Item) (t0 : DateTime), (its.foldl (put t) t0).mi = if .minute ∈ its then t.mi else t0.mi
  | [], t0 => by simp
  | it :: its, t0 => by
    rw [List.foldl_cons, fold_minute t its]
    by_cases h : Item.minute ∈ its
    · simp [h]
    · cases it <;> simp [h, put]

theorem fold_second (t : DateTime) : ∀ (its : List Item) (t0 : DateTime), (its.foldl (put t) t0).s = if .second ∈ its then t.s else t0.s
  | [], t0 => by simp
  | it :: its, t0 => by
    rw [List.foldl_cons, fold_second t its]
    by_cases h : Item.second ∈ its
    · simp [h]
    · cases it <;> simp [h, put]

theorem fold_micro (t : DateTime) : ∀ (its : List Item) (t0 : DateTime), (its.foldl (put t) t0).us = if .micro ∈ its then t.us else t0.us
  | [], t0 => by simp
  | it :: its, t0 => by
    rw [List.foldl_cons, fold_micro t its]
    by_cases h : Item.micro ∈ its
    · simp [h]
    · cases it <;> simp [h, put]

theorem fold_zone (t : DateTime) : ∀ (its : List Item) (t0 : DateTime), (its.foldl (put t) t0).tz = if .zone ∈ its then t.tz else t0.tz
  | [], t0 => by simp
  | it :: its, t0 => by
    rw [List.foldl_cons, fold_zone t its]
    by_cases h : Item.zone ∈ its
    · simp [h]
    · cases it <;> simp [h, put]

theorem fold_year (t : DateTime) : ∀ (its : List Item) (t0 : DateTime), ¬ (Item.year ∈ its ∧ Item.year2 ∈ its) →
    (its.foldl (put t) t0).date.y = if .year ∈ its then t.date.y else if .year2 ∈ its then century (t.date.y % 100) else t0.date.y
  | [], t0, _ => by simp
  | it :: its, t0, hn => by
    rw [List.foldl_cons, fold_year t its _ (fun h => hn ⟨List.mem_cons_of_mem _ h.1, List.mem_cons_of_mem _ h.2⟩)]
    by_cases h : Item.year ∈ its
    · simp [h]
    · by_cases h2 : Item.year2 ∈ its
      · have : it ≠ .year := fun e => hn ⟨e ▸ List.mem_cons_self .., List.mem_cons_of_mem _ h2⟩
        simp [h, h2, Ne.symm this]
      · cases it <;> simp [h, h2, put]

theorem fold_shown (t : DateTime) (its : List Item) (hn : ¬ (Item.year ∈ its ∧ Item.year2 ∈ its)) : its.foldl (put t) strpDefault = shown its t := by
  have e : ∀ a b : DateTime, a.date.y = b.date.y → a.date.m = b.date.m → a.date.d = b.date.d → a.h = b.h → a.mi = b.mi → a.s = b.s → a.us = b.us → a.tz = b.tz → a = b := by
    rintro ⟨⟨_, _, _⟩, _, _, _, _, _⟩ ⟨⟨_, _, _⟩, _, _, _, _, _⟩ h1 h2 h3 h4 h5 h6 h7 h8
    cases h1; cases h2; cases h3; cases h4; cases h5; cases h6; cases h7; cases h8; rfl
  apply e
  · rw [fold_year t its _ hn]; rfl
  · rw [fold_month]; rfl
  · rw [fold_day]; rfl
  · rw [fold_hour]; rfl
  · rw [fold_minute]; rfl
  · rw [fold_second]; rfl
  · rw [fold_micro]; rfl
  · rw [fold_zone]; rfl

theorem strftime_offset {t : DateTime} : ∀ {its : List Item} {s : List Char}, strftime t its = some s → Item.zone ∈ its → offsetOk t.tz = true
  | [], _, _, h => by cases h
  | it :: its, s, hs, h => by
    obtain ⟨w, r, h1, h2, -⟩ := strftime_cons hs
    rcases List.mem_cons.1 h with h | h
    · subst h
      rw [writeItem] at h1
      cases hz : t.tz with
      | none => rfl
      | some o =>
        rw [hz] at h1
        unfold tzText at h1
        dsimp only at h1
        split at h1
        · rename_i ho; simpa [offsetOk] using ho
        · cases h1
    · exact strftime_offset h2 h

/-- **C98.**  Every text that `strftime` writes for a valid datetime with a format, `strptime` reads with the same format: all of it is consumed, components that the format shows come back,
and the others are those of 1900-01-01 00:00:00.  `ValueError` is raised only if that date does not exist. -/
theorem C98_roundtrip (its : List Item) (t : DateTime) (s : List Char) (ht : DateTimeOk t) (hf : FormatOk its) (hs : ShowOk its t) (hn : ¬ (Item.year ∈ its ∧ Item.year2 ∈ its))
    (h : strftime t its = some s) : strptime its s = if DateTimeOk (shown its t) then some (shown its t) else none := by
  unfold strptime
  rw [readItems_written ht its strpDefault s hf hs h, fold_shown t its hn]
  dsimp only
  have ho : offsetOk (shown its t).tz = true := by
    show offsetOk (if Item.zone ∈ its then t.tz else none) = true
    by_cases hz : Item.zone ∈ its
    · rw [if_pos hz]; exact strftime_offset h hz
    · rw [if_neg hz]; rfl
  rw [if_pos ho]
  rfl

/-- A format that shows everything. -/
def Complete (its : List Item) (t : DateTime) : Prop :=
  .year ∈ its ∧ .month ∈ its ∧ .day ∈ its ∧ (.hour ∈ its ∨ t.h = 0) ∧ (.minute ∈ its ∨ t.mi = 0) ∧ (.second ∈ its ∨ t.s = 0) ∧ (.micro ∈ its ∨ t.us = 0) ∧ (.zone ∈ its ∨ t.tz = none)

theorem shown_complete {its : List Item} {t : DateTime} (h : Complete its t) : shown its t = t := by
  obtain ⟨h1, h2, h3, h4, h5, h6, h7, h8⟩ := h
  have hi : ∀ {α : Type} (p : Prop) [Decidable p] (a b : α), (p ∨ a = b) → (if p then a else b) = a := by
    intro α p _ a b h
    by_cases hp : p
    · rw [if_pos hp]
    · rw [if_neg hp]; exact (h.resolve_left hp).symm
  obtain ⟨⟨y, m, d⟩, hh, mi, s, us, tz⟩ := t
  unfold shown
  simp only [h1, h2, h3, if_true]
  rw [hi _ hh 0 h4, hi _ mi 0 h5, hi _ s 0 h6, hi _ us 0 h7, hi _ tz none h8]

/-- **C98**: a format that shows every component that is not zero gives the value back. -/
theorem C98_complete (its : List Item) (t : DateTime) (s : List Char) (ht : DateTimeOk t) (hf : FormatOk its) (hs : ShowOk its t) (hn : Item.year2 ∉ its) (hc : Complete its t)
    (h : strftime t its = some s) : strptime its s = some t := by
  rw [C98_roundtrip its t s ht hf hs (fun h => hn h.2) h, shown_complete hc, if_pos ht]

/-! ### What is accepted -/

theorem takeDigits_lt : ∀ {k a : Nat} {cs : List Char} {p : Nat × List Char}, takeDigits k a cs = some p → p.1 < (a + 1) * 10 ^ k
  | 0, a, cs, p, h => by rw [takeDigits] at h; cases h; simp
  | k + 1, a, [], p, h => by rw [takeDigits] at h; cases h
  | k + 1, a, c :: cs, p, h => by
    rw [takeDigits] at h
    cases hc : digitVal c with
    | none => rw [hc] at h; cases h
    | some d =>
      rw [hc] at h
      have h1 := takeDigits_lt h
      have h2 := digitVal_lt hc
      have h3 : (10 * a + d + 1) * 10 ^ k ≤ (10 * (a + 1)) * 10 ^ k := Nat.mul_le_mul_right _ (by omega)
      rw [Nat.pow_succ]
      calc p.1 < _ := h1
        _ ≤ _ := h3
        _ = _ := by rw [Nat.mul_comm 10 (a + 1), Nat.mul_assoc, Nat.mul_comm 10]

/-- One step only changes the component of its piece. -/
theorem readItem_spec {t0 t : DateTime} {cs r : List Char} {it : Item} (h : (t, r) ∈ readItem t0 cs it) : ∃ u : DateTime, t = put u t0 it := by
  cases it <;> simp only [readItem, List.mem_map] at h <;> obtain ⟨p, hp, e⟩ := h <;> simp only [Prod.mk.injEq] at e <;> obtain ⟨e, -⟩ := e <;> subst e
  case year => exact ⟨⟨⟨p.1, 0, 0⟩, 0, 0, 0, 0, none⟩, rfl⟩
  case year2 =>
    have hp' : p.1 < 100 := by
      unfold digitAlts at hp
      cases h2 : takeDigits 2 0 cs with
      | none => rw [h2] at hp; cases hp
      | some q =>
        rw [h2] at hp
        have := List.mem_singleton.1 hp
        subst this
        have := takeDigits_lt (k := 2) (a := 0) (cs := cs) h2
        simpa using this
    exact ⟨⟨⟨p.1, 0, 0⟩, 0, 0, 0, 0, none⟩, by simp [put, Nat.mod_eq_of_lt hp']⟩
  case month => exact ⟨⟨⟨0, p.1, 0⟩, 0, 0, 0, 0, none⟩, rfl⟩
  case day => exact ⟨⟨⟨0, 0, p.1⟩, 0, 0, 0, 0, none⟩, rfl⟩
  case hour => exact ⟨⟨⟨0, 0, 0⟩, p.1, 0, 0, 0, none⟩, rfl⟩
  case minute => exact ⟨⟨⟨0, 0, 0⟩, 0, p.1, 0, 0, none⟩, rfl⟩
  case second => exact ⟨⟨⟨0, 0, 0⟩, 0, 0, p.1, 0, none⟩, rfl⟩
  case micro => exact ⟨⟨⟨0, 0, 0⟩, 0, 0, 0, p.1, none⟩, rfl⟩
  case zone => exact ⟨⟨⟨0, 0, 0⟩, 0, 0, 0, 0, some p.1⟩, rfl⟩
  case lit => exact ⟨t0, rfl⟩
  case ws => exact ⟨t0, rfl⟩

theorem readItems_cons {it : Item} {its : List Item} {t0 t : DateTime} {cs r : List Char} (h : readItems (it :: its) t0 cs = some (t, r)) :
    ∃ t1 r1, (t1, r1) ∈ readItem t0 cs it ∧ readItems its t1 r1 = some (t, r) := by
  rw [readItems] at h
  obtain ⟨p, h1, h2⟩ := List.exists_of_findSome?_eq_some h
  exact ⟨p.1, p.2, h1, h2⟩

theorem century_century (n : Nat) (hn : n < 100) : century (century n % 100) = century n := by
  unfold century
  split <;> split <;> omega

/-- What is not in the format is not changed. -/
theorem readItems_keeps : ∀ (its : List Item) (t0 t : DateTime) (cs r : List Char), readItems its t0 cs = some (t, r) →
    (Item.year ∉ its → Item.year2 ∉ its → t.date.y = t0.date.y) ∧ (Item.year ∉ its → Item.year2 ∈ its → ∃ n, t.date.y = century (n % 100)) ∧
    (Item.month ∉ its → t.date.m = t0.date.m) ∧ (Item.day ∉ its → t.date.d = t0.date.d) ∧ (Item.hour ∉ its → t.h = t0.h) ∧ (Item.minute ∉ its → t.mi = t0.mi) ∧
    (Item.second ∉ its → t.s = t0.s) ∧ (Item.micro ∉ its → t.us = t0.us) ∧ (Item.zone ∉ its → t.tz = t0.tz)
  | [], t0, t, cs, r, h => by
    rw [readItems] at h
    cases h
    simp
  | it :: its, t0, t, cs, r, h => by
    obtain ⟨t1, r1, h1, h2⟩ := readItems_cons h
    obtain ⟨u, rfl⟩ := readItem_spec h1
    obtain ⟨a1, a2, a3, a4, a5, a6, a7, a8, a9⟩ := readItems_keeps its _ t r1 r h2
    refine ⟨?_, ?_, ?_, ?_, ?_, ?_, ?_, ?_, ?_⟩
    · intro b1 b2
      rw [a1 (fun h => b1 (List.mem_cons_of_mem _ h)) (fun h => b2 (List.mem_cons_of_mem _ h))]
      cases it <;> first | rfl | (exfalso; exact b1 (List.mem_cons_self ..)) | (exfalso; exact b2 (List.mem_cons_self ..))
    · intro b1 b2
      by_cases b3 : Item.year2 ∈ its
      · exact a2 (fun h => b1 (List.mem_cons_of_mem _ h)) b3
      · have := a1 (fun h => b1 (List.mem_cons_of_mem _ h)) b3
        rcases List.mem_cons.1 b2 with b2 | b2
        · subst b2; exact ⟨_, this⟩
        · exact absurd b2 b3
    · intro b
      rw [a3 (fun h => b (List.mem_cons_of_mem _ h))]
      cases it <;> first | rfl | (exfalso; exact b (List.mem_cons_self ..))
    · intro b
      rw [a4 (fun h => b (List.mem_cons_of_mem _ h))]
      cases it <;> first | rfl | (exfalso; exact b (List.mem_cons_self ..))
    · intro b
      rw [a5 (fun h => b (List.mem_cons_of_mem _ h))]
      cases it <;> first | rfl | (exfalso; exact b (List.mem_cons_self ..))
    · intro b
      rw [a6 (fun h => b (List.mem_cons_of_mem _ h))]
      cases it <;> first | rfl | (exfalso; exact b (List.mem_cons_self ..))
    · intro b
      rw [a7 (fun h => b (List.mem_cons_of_mem _ h))]
      cases it <;> first | rfl | (exfalso; exact b (List.mem_cons_self ..))
    · intro b
      rw [a8 (fun h => b (List.mem_cons_of_mem _ h))]
      cases it <;> first | rfl | (exfalso; exact b (List.mem_cons_self ..))
    · intro b
      rw [a9 (fun h => b (List.mem_cons_of_mem _ h))]
      cases it <;> first | rfl | (exfalso; exact b (List.mem_cons_self ..))

theorem strptime_some {its : List Item} {s : List Char} {t : DateTime} (h : strptime its s = some t) :
    readItems its strpDefault s = some (t, []) ∧ offsetOk t.tz = true ∧ DateTimeOk t := by
  unfold strptime at h
  cases hr : readItems its strpDefault s with
  | none => rw [hr] at h; cases h
  | some p =>
    obtain ⟨u, r⟩ := p
    rw [hr] at h
    cases r with
    | cons c r => cases h
    | nil =>
      dsimp only at h
      by_cases ho : offsetOk u.tz = true
      · rw [if_pos ho] at h
        unfold mkDateTime at h
        split at h
        · rename_i hu; cases h; exact ⟨rfl, ho, hu⟩
        · cases h
      · rw [if_neg ho] at h; cases h

/-- **C98**: whatever the format and the text, an accepted value is a valid datetime whose offset is less than a day, and every component that the format does not show is that of
1900-01-01 00:00:00 without zone; a year of two digits lies between 1969 and 2068. -/
theorem C98_accepts (its : List Item) (s : List Char) (t : DateTime) (h : strptime its s = some t) :
    DateTimeOk t ∧ offsetOk t.tz = true ∧ shown its t = t ∧ (Item.year ∉ its → Item.year2 ∈ its → 1969 ≤ t.date.y ∧ t.date.y ≤ 2068) := by
  obtain ⟨h1, h2, h3⟩ := strptime_some h
  obtain ⟨a1, a2, a3, a4, a5, a6, a7, a8, a9⟩ := readItems_keeps its _ t s [] h1
  refine ⟨h3, h2, ?_, ?_⟩
  · have hi : ∀ {α : Type} (p : Prop) [Decidable p] (a b : α), (¬ p → a = b) → (if p then a else b) = a := by
      intro α p _ a b h
      by_cases hp : p
      · rw [if_pos hp]
      · rw [if_neg hp]; exact (h hp).symm
    have hy : (if Item.year ∈ its then t.date.y else if Item.year2 ∈ its then century (t.date.y % 100) else 1900) = t.date.y := by
      apply hi
      intro b1
      by_cases b2 : Item.year2 ∈ its
      · rw [if_pos b2]
        obtain ⟨n, hn⟩ := a2 b1 b2
        rw [hn, century_century _ (Nat.mod_lt _ (by omega))]
      · rw [if_neg b2]; exact a1 b1 b2
    unfold shown
    rw [hy, hi _ t.date.m 1 a3, hi _ t.date.d 1 a4, hi _ t.h 0 a5, hi _ t.mi 0 a6, hi _ t.s 0 a7, hi _ t.us 0 a8, hi _ t.tz none a9]
  · intro b1 b2
    obtain ⟨n, hn⟩ := a2 b1 b2
    have := Nat.mod_lt n (show 100 > 0 by omega)
    rw [hn]
    unfold century
    split <;> omega

/-! ### Formats as text -/

/-- An offset is followed by the end, white space, or a character that is no part of it. -/
def ZonesApart : List Item → Prop
  | [] => True
  | .zone :: its => AfterZone its ∧ ZonesApart its
  | _ :: its => ZonesApart its

/-- `FormatOk` without the condition on offsets. -/
def Shape : List Item → Prop
  | [] => True
  | .lit c :: its => isSpace c = false ∧ Shape its
  | .ws cs :: its => cs ≠ [] ∧ (∀ c ∈ cs, isSpace c = true) ∧ AfterSpace its ∧ Shape its
  | _ :: its => Shape its

theorem shape_tail {it : Item} {its : List Item} (h : Shape (it :: its)) : Shape its := by
  cases it with
  | lit c => exact h.2
  | ws cs => exact h.2.2.2
  | _ => exact h

theorem shape_push {it : Item} {its : List Item} (h : Shape its) (hl : ∀ c, it = .lit c → isSpace c = false) (hw : ∀ cs, it = .ws cs → cs ≠ [] ∧ ∀ c ∈ cs, isSpace c = true) :
    Shape (pushItem it its) := by
  cases it with
  | ws a =>
    obtain ⟨w1, w2⟩ := hw a rfl
    cases its with
    | nil => exact ⟨w1, w2, trivial, trivial⟩
    | cons it its =>
      cases it with
      | ws b =>
        obtain ⟨b1, b2, b3, b4⟩ := h
        refine ⟨by simp [w1], ?_, b3, b4⟩
        intro c hc
        rcases List.mem_append.1 hc with hc | hc
        · exact w2 c hc
        · exact b2 c hc
      | _ => exact ⟨w1, w2, trivial, h⟩
  | lit c => exact ⟨hl c rfl, h⟩
  | _ => exact h

theorem directive_spec {d : Char} {it : Item} (h : directive d = some it) : (∀ c, it = .lit c → isSpace c = false) ∧ ∀ cs, it ≠ .ws cs := by
  unfold directive at h
  split at h <;> cases h <;> refine ⟨?_, nofun⟩ <;> intro c hc <;> cases hc
  decide

theorem parseFormat_plain {c : Char} (hc : c ≠ '%') (cs : List Char) :
    parseFormat (c :: cs) = match parseFormat cs with | some its => some (pushItem (if isSpace c then .ws [c] else .lit c) its) | none => none := by
  rw [parseFormat.eq_4]
  · rfl
  · intro d r e _; exact hc e
  · exact fun e _ => hc e

theorem parseFormat_shape : ∀ (n : Nat) (cs : List Char) (its : List Item), cs.length ≤ n → parseFormat cs = some its → Shape its := by
  intro n
  induction n with
  | zero =>
    intro cs its hn h
    cases cs with
    | nil => rw [parseFormat] at h; cases h; trivial
    | cons c cs => simp at hn
  | succ n ih =>
    intro cs its hn h
    cases cs with
    | nil => rw [parseFormat] at h; cases h; trivial
    | cons c cs =>
      by_cases hc : c = '%'
      · subst hc
        cases cs with
        | nil => rw [parseFormat] at h; cases h
        | cons d cs =>
          rw [parseFormat] at h
          cases h1 : directive d with
          | none => rw [h1] at h; cases h
          | some it =>
            cases h2 : parseFormat cs with
            | none => rw [h1, h2] at h; cases h
            | some its' =>
              rw [h1, h2] at h
              cases h
              obtain ⟨d1, d2⟩ := directive_spec h1
              exact shape_push (ih _ _ (by simp only [List.length_cons] at hn; omega) h2) d1 fun cs e => absurd e (d2 cs)
      · rw [parseFormat_plain hc] at h
        cases h2 : parseFormat cs with
        | none => rw [h2] at h; cases h
        | some its' =>
          rw [h2] at h
          cases h
          have hl : cs.length ≤ n := by simp only [List.length_cons] at hn; omega
          by_cases hs : isSpace c = true
          · rw [if_pos hs]
            exact shape_push (ih _ _ hl h2) nofun (fun cs e => by cases e; exact ⟨nofun, fun x hx => by rw [List.mem_singleton.1 hx]; exact hs⟩)
          · rw [if_neg hs]
            exact shape_push (ih _ _ hl h2) (fun x e => by cases e; simpa using hs) nofun

theorem formatOk_of {its : List Item} (h1 : Shape its) (h2 : ZonesApart its) : FormatOk its := by
  induction its with
  | nil => trivial
  | cons it its ih =>
    cases it with
    | lit c => exact ⟨h1.1, ih h1.2 h2⟩
    | ws cs => exact ⟨h1.1, h1.2.1, h1.2.2.1, ih h1.2.2.2 h2⟩
    | zone => exact ⟨h2.1, ih h1 h2.2⟩
    | _ => exact ih h1 h2

/-- How a piece is written in a format. -/
def itemText : Item → List Char
  | .year => ['%', 'Y']
  | .year2 => ['%', 'y']
  | .month => ['%', 'm']
  | .day => ['%', 'd']
  | .hour => ['%', 'H']
  | .minute => ['%', 'M']
  | .second => ['%', 'S']
  | .micro => ['%', 'f']
  | .zone => ['%', 'z']
  | .lit c => if c = '%' then ['%', '%'] else [c]
  | .ws cs => cs

theorem parseFormat_ws {its : List Item} (ha : AfterSpace its) {r : List Char} (hr : parseFormat r = some its) :
    ∀ cs : List Char, cs ≠ [] → (∀ c ∈ cs, isSpace c = true) → parseFormat (cs ++ r) = some (.ws cs :: its)
  | [], h, _ => absurd rfl h
  | c :: cs, _, hs => by
    have hc := hs c (List.mem_cons_self ..)
    have hp : c ≠ '%' := fun e => by subst e; exact absurd hc (by decide)
    rw [List.cons_append, parseFormat_plain hp, if_pos hc]
    cases cs with
    | nil =>
      rw [List.nil_append, hr]
      cases its with
      | nil => rfl
      | cons it its => cases it <;> first | rfl | exact ha.elim
    | cons d cs =>
      rw [parseFormat_ws ha hr (d :: cs) nofun fun x hx => hs x (List.mem_cons_of_mem _ hx)]
      rfl

/-- **C98**: every format of these directives, of characters that are no white space and of white space between them is understood as it is written. -/
theorem C98_format_text (its : List Item) (h : Shape its) : parseFormat (its.flatMap itemText) = some its := by
  induction its with
  | nil => rfl
  | cons it its ih =>
    have ih := ih (shape_tail h)
    rw [List.flatMap_cons]
    cases it with
    | lit c =>
      have hs := h.1
      by_cases hc : c = '%'
      · subst hc
        show parseFormat ('%' :: '%' :: its.flatMap itemText) = _
        rw [parseFormat, ih]
        rfl
      · show parseFormat ((if c = '%' then ['%', '%'] else [c]) ++ its.flatMap itemText) = _
        rw [if_neg hc, List.cons_append, List.nil_append, parseFormat_plain hc, ih, hs]
        rfl
    | ws cs => exact parseFormat_ws h.2.2.1 ih cs h.1 h.2.1
    | _ => show parseFormat ('%' :: _ :: its.flatMap itemText) = _; rw [parseFormat, ih]; rfl

/-! ### Fields -/

theorem firstSome_iff {α : Type} (cs : List Char) (a : α) : ∀ fs : List (List Char → Option α),
    firstSome fs cs = some a ↔ ∃ pre f post, fs = pre ++ f :: post ∧ (∀ g ∈ pre, g cs = none) ∧ f cs = some a
  | [] => by simp [firstSome]
  | f :: fs => by
    rw [firstSome]
    cases hf : f cs with
    | some b =>
      dsimp only
      constructor
      · intro h; cases h; exact ⟨[], f, fs, rfl, nofun, hf⟩
      · rintro ⟨pre, g, post, h1, h2, h3⟩
        cases pre with
        | nil => cases h1; rw [hf] at h3; exact h3
        | cons p pre => cases h1; have := h2 f (List.mem_cons_self ..); rw [hf] at this; cases this
    | none =>
      dsimp only
      rw [firstSome_iff cs a fs]
      constructor
      · rintro ⟨pre, g, post, h1, h2, h3⟩
        exact ⟨f :: pre, g, post, by rw [h1]; rfl, fun x hx => (List.mem_cons.1 hx).elim (fun e => e ▸ hf) (h2 x), h3⟩
      · rintro ⟨pre, g, post, h1, h2, h3⟩
        cases pre with
        | nil => cases h1; rw [hf] at h3; cases h3
        | cons p pre => cases h1; exact ⟨pre, g, post, rfl, fun x hx => h2 x (List.mem_cons_of_mem _ hx), h3⟩

theorem firstSome_map {α β γ : Type} {p : γ → List Char → Option α} {g : α → β} (cs : List Char) : ∀ fs : List γ,
    firstSome (fs.map fun f cs => (p f cs).map g) cs = (firstSome (fs.map p) cs).map g
  | [] => rfl
  | f :: fs => by
    rw [List.map_cons, List.map_cons, firstSome, firstSome]
    cases p f cs with
    | some a => rfl
    | none => exact firstSome_map cs fs

theorem parseFormats_iff (formats : List (List Item)) (s : String) (t : DateTime) :
    parseFormats formats (.str s) = some t ↔ ∃ pre f post, formats = pre ++ f :: post ∧ (∀ g ∈ pre, strptime g s.toList = none) ∧ strptime f s.toList = some t := by
  rw [parseFormats, firstSome_iff]
  constructor
  · rintro ⟨pre, f, post, h1, h2, h3⟩
    obtain ⟨pre', rest, e1, e2, e3⟩ := List.map_eq_append_iff.1 h1
    obtain ⟨f', post', e4, e5, e6⟩ := List.map_eq_cons_iff.1 e3
    subst e4 e2 e5
    exact ⟨pre', f', post', e1, fun g hg => h2 _ (List.mem_map.2 ⟨g, hg, rfl⟩), h3⟩
  · rintro ⟨pre, f, post, h1, h2, h3⟩
    subst h1
    refine ⟨pre.map strptime, strptime f, post.map strptime, by simp, ?_, h3⟩
    intro g hg
    obtain ⟨x, hx, rfl⟩ := List.mem_map.1 hg
    exact h2 x hx

/-- **C98, fields.**  A `DateType` with formats takes from a text the date of the first format that reads it, and refuses a text that no format reads. -/
theorem C98_date_field (formats : List (List Item)) (hf : formats ≠ []) (s : String) (iapp : Val) :
    (∀ d, (dateTypeF formats).toNative iapp (.str s) = .ok (.date d) ↔
      ∃ pre f post t, formats = pre ++ f :: post ∧ (∀ g ∈ pre, strptime g s.toList = none) ∧ strptime f s.toList = some t ∧ d = t.date) ∧
    ((∀ f ∈ formats, strptime f s.toList = none) → (dateTypeF formats).toNative iapp (.str s) = convErr "parse") := by
  have e : (dateTypeF formats).toNative iapp (.str s) = match (parseFormats formats (.str s)).map DateTime.date with | some d => .ok (.date d) | none => convErr "parse" := by
    show dateNative (formats.map fun f cs => (strptime f cs).map DateTime.date) (.str s) = _
    rw [dateNative, dateFormats, if_neg (by simpa using hf), firstSome_map]
    rfl
  constructor
  · intro d
    rw [e]
    cases hp : parseFormats formats (.str s) with
    | none =>
      constructor
      · intro h; cases h
      · rintro ⟨pre, f, post, t, h1, h2, h3, h4⟩
        have := (parseFormats_iff formats s t).2 ⟨pre, f, post, h1, h2, h3⟩
        rw [hp] at this
        cases this
    | some t =>
      obtain ⟨pre, f, post, h1, h2, h3⟩ := (parseFormats_iff formats s t).1 hp
      constructor
      · intro h
        have : t.date = d := by injection h with h; injection h
        exact ⟨pre, f, post, t, h1, h2, h3, this.symm⟩
      · rintro ⟨pre', f', post', t', g1, g2, g3, g4⟩
        have := (parseFormats_iff formats s t').2 ⟨pre', f', post', g1, g2, g3⟩
        rw [hp] at this
        cases this
        rw [g4]
        rfl
  · intro h
    rw [e]
    cases hp : parseFormats formats (.str s) with
    | none => rfl
    | some t =>
      obtain ⟨pre, f, post, h1, h2, h3⟩ := (parseFormats_iff formats s t).1 hp
      rw [h f (by rw [h1]; simp)] at h3
      cases h3

/-- **C98, fields.**  A `DateTimeType` that exports with one of its formats reads its own text back as the same value, whatever the settings of `tzd`, `convert_tz` and `drop_tzinfo`, if the
value satisfies the policy of the field, the format shows all of it, and no earlier format reads the text. -/
theorem C98_datetime_field (c : DTCfg) (fmt : String) (f : List Item) (pre post : List (List Item)) (t : DateTime) (hp : parseFormat fmt.toList = some f) (hz : ZonesApart f)
    (ht : DateTimeOk t) (hs : ShowOk f t) (hn : Item.year2 ∉ f) (hc : Complete f t) (hr : c.tzd = .require → t.tz ≠ none) (ho : offsetOk t.tz = true) (vapp eapp iapp : Val)
    (hv : ∀ v ∈ (dateTimeTypeF c (pre ++ f :: post) (some f)).validators, v vapp (.datetime t) = .ok ()) :
    ∃ s, (dateTimeTypeF c (pre ++ f :: post) (some f)).toPrimitive eapp (.datetime t) = .ok (.str s) ∧
      ((∀ g ∈ pre, strptime g s.toList = none) → (dateTimeTypeF c (pre ++ f :: post) (some f)).toNative iapp (.str s) = .ok (.datetime t)) := by
  have hw : ∃ s, strftime t f = some s := by
    clear hc hn hs hz hp hv
    induction f with
    | nil => exact ⟨[], rfl⟩
    | cons it its ih =>
      obtain ⟨s, e⟩ := ih
      have : ∃ w, writeItem t it = some w := by
        cases it with
        | zone =>
          rw [writeItem]
          cases hz : t.tz with
          | none => exact ⟨_, rfl⟩
          | some o =>
            rw [hz] at ho
            have : o.natAbs < 86400 := by simpa [offsetOk] using ho
            unfold tzText
            dsimp only
            rw [if_pos this]
            exact ⟨_, rfl⟩
        | _ => exact ⟨_, rfl⟩
      obtain ⟨w, e'⟩ := this
      exact ⟨w ++ s, by rw [strftime, e', e]⟩
  obtain ⟨s, hs'⟩ := hw
  refine ⟨String.ofList s, ?_, ?_⟩
  · show dtPrimitiveF (some f) (.datetime t) = _
    cases f with
    | nil => exact absurd hc.1 nofun
    | cons it its => rw [dtPrimitiveF, hs']; nofun
  · intro hpre
    show dtNative (withFormats c (pre ++ f :: post)) (.str _) = _
    have hd : dtParse (withFormats c (pre ++ f :: post)) (.str (String.ofList s)) = .ok t := by
      unfold withFormats
      rw [if_neg (by simp)]
      have := (parseFormats_iff (pre ++ f :: post) (String.ofList s) t).2 ⟨pre, f, post, rfl, hpre, by
        rw [String.toList_ofList]
        exact C98_complete f t s ht (formatOk_of (parseFormat_shape _ _ _ (Nat.le_refl _) hp) hz) hs hn hc hs'⟩
      unfold dtParse
      dsimp only
      rw [this]
    rw [dtNative_parse (by nofun) hd]
    have hk : convParsed c t = .ok t := convParsed_keeps ht vapp (hv _ (List.mem_singleton.2 rfl)) hr
    have : convParsed (withFormats c (pre ++ f :: post)) t = convParsed c t := by
      unfold withFormats
      split <;> rfl
    rw [this, hk]
    rfl

/-- `%Y-%m-%dT%H:%M:%S.%f%z`, the format that is used if none is given (`types/base.py:740`). -/
def standardFormat : List Item := [.year, .lit '-', .month, .lit '-', .day, .lit 'T', .hour, .lit ':', .minute, .lit ':', .second, .lit '.', .micro, .zone]

/-- **C98**: without `serialized_format`, or with an empty one, a datetime is exported with the standard format. -/
theorem C98_standard (c : DTCfg) (formats : List (List Item)) (t : DateTime) (eapp : Val) :
    (dateTimeTypeF c formats none).toPrimitive eapp (.datetime t) = (dateTimeTypeF c formats (some standardFormat)).toPrimitive eapp (.datetime t) ∧
    (dateTimeTypeF c formats (some [])).toPrimitive eapp (.datetime t) = (dateTimeTypeF c formats (some standardFormat)).toPrimitive eapp (.datetime t) := by
  have h : dtPrimitive (.datetime t) = dtPrimitiveF (some standardFormat) (.datetime t) := by
    rw [dtPrimitive, dtPrimitiveF]
    · unfold standardFormat
      simp only [strftime, writeItem, localText, dateText]
      cases tzText t.tz with
      | none => rfl
      | some z => simp
    · nofun
  exact ⟨h, h⟩

/-- **C98**: without formats, or with an empty list, the field reads as before, with its parser if it has one. -/
theorem C98_no_formats (c : DTCfg) (v : Val) (iapp eapp : Val) :
    (dateTimeTypeF c [] none).toNative iapp v = (dateTimeType c).toNative iapp v ∧ (dateTimeTypeF c [] none).toPrimitive eapp v = (dateTimeType c).toPrimitive eapp v := ⟨rfl, rfl⟩

/-! ### The default format -/

theorem char_of_nat {c d : Char} (h : c.toNat = d.toNat) : c = d := Char.ext (UInt32.toNat_inj.1 h)

theorem rng_one {n : Nat} {d : Char} (hd : d.toNat = 48 + n) (c : Char) : rng n n c = if c = d then some n else none := by
  unfold rng
  by_cases h : c = d
  · subst h; rw [if_pos (by omega), if_pos rfl]; congr 1; omega
  · rw [if_neg (fun h' => h (char_of_nat (by omega))), if_neg h]

theorem rng_pos (c : Char) : rng 1 9 c = if (isAsciiDigit c && c != '0') = true then some (c.toNat - 48) else none := by
  unfold rng isAsciiDigit
  have e : (c = '0') ↔ c.toNat = 48 := ⟨fun h => by subst h; decide, fun h => char_of_nat (by rw [h]; decide)⟩
  by_cases h : 48 + 1 ≤ c.toNat ∧ c.toNat ≤ 48 + 9
  · rw [if_pos h, if_pos]
    simp only [Bool.and_eq_true, decide_eq_true_eq, bne_iff_ne, ne_eq, e]
    omega
  · rw [if_neg h, if_neg]
    simp only [Bool.and_eq_true, decide_eq_true_eq, bne_iff_ne, ne_eq, e]
    omega


theorem rng02 (c : Char) : rng 0 2 c = if c = '0' then some 0 else if c = '1' then some 1 else if c = '2' then some 2 else none := by
  unfold rng
  by_cases h0 : c = '0'
  · subst h0; rfl
  by_cases h1 : c = '1'
  · subst h1; rfl
  by_cases h2 : c = '2'
  · subst h2; rfl
  rw [if_neg h0, if_neg h1, if_neg h2, if_neg]
  intro h
  have e0 : c.toNat ≠ 48 := fun h => h0 (char_of_nat h)
  have e1 : c.toNat ≠ 49 := fun h => h1 (char_of_nat h)
  have e2 : c.toNat ≠ 50 := fun h => h2 (char_of_nat h)
  omega

theorem rng01 (c : Char) : rng 0 1 c = if c = '0' then some 0 else if c = '1' then some 1 else none := by
  unfold rng
  by_cases h0 : c = '0'
  · subst h0; rfl
  by_cases h1 : c = '1'
  · subst h1; rfl
  rw [if_neg h0, if_neg h1, if_neg]
  intro h
  have e0 : c.toNat ≠ 48 := fun h => h0 (char_of_nat h)
  have e1 : c.toNat ≠ 49 := fun h => h1 (char_of_nat h)
  omega

theorem rng12 (c : Char) : rng 1 2 c = if c = '1' then some 1 else if c = '2' then some 2 else none := by
  unfold rng
  by_cases h0 : c = '1'
  · subst h0; rfl
  by_cases h1 : c = '2'
  · subst h1; rfl
  rw [if_neg h0, if_neg h1, if_neg]
  intro h
  have e0 : c.toNat ≠ 49 := fun h => h0 (char_of_nat h)
  have e1 : c.toNat ≠ 50 := fun h => h1 (char_of_nat h)
  omega

/-- The first alternative, if it reaches the end. -/
def headEnd : List (Nat × List Char) → Option Nat
  | (d, []) :: _ => some d
  | _ => none

theorem cls2_rest {a b : Char → Option Nat} {cs : List Char} {p : Nat × List Char} (h : p ∈ cls2 a b cs) : p.2.length + 2 = cs.length := by
  unfold cls2 at h
  split at h
  · split at h
    · rw [List.mem_singleton.1 h]; rfl
    · cases h
  · cases h

theorem cls1_rest {a : Char → Option Nat} {cs : List Char} {p : Nat × List Char} (h : p ∈ cls1 a cs) : p.2.length + 1 = cs.length := by
  unfold cls1 at h
  split at h
  · split at h
    · rw [List.mem_singleton.1 h]; rfl
    · cases h
  · cases h

theorem dayAlts_rest {cs : List Char} {p : Nat × List Char} (h : p ∈ dayAlts cs) : cs.length ≤ p.2.length + 2 := by
  unfold dayAlts at h
  simp only [List.mem_append, or_assoc] at h
  rcases h with h | h | h | h | h
  · have := cls2_rest h; omega
  · have := cls2_rest h; omega
  · have := cls2_rest h; omega
  · have := cls1_rest h; omega
  · unfold spaceDigit at h
    split at h
    · have := cls1_rest h; simp only [List.length_cons]; omega
    · cases h

theorem headEnd_none {l : List (Nat × List Char)} (h : ∀ p ∈ l, p.2 ≠ []) : headEnd l = none := by
  cases l with
  | nil => rfl
  | cons p l =>
    obtain ⟨d, r⟩ := p
    cases r with
    | nil => exact absurd rfl (h _ (List.mem_cons_self ..))
    | cons c r => rfl

theorem day_agree (r : List Char) : headEnd (dayAlts r) = strpDay r := by
  have r0 := rng_one (n := 0) (d := '0') rfl
  have r3 := rng_one (n := 3) (d := '3') rfl
  cases r with
  | nil => rfl
  | cons c r =>
    cases r with
    | nil =>
      by_cases hs : c = ' '
      · subst hs; rfl
      have : spaceDigit [c] = [] := by unfold spaceDigit; split; (rename_i h; cases h; exact absurd rfl hs); rfl
      have h2 : strpDay [c] = if (isAsciiDigit c && c != '0') = true then some (c.toNat - 48) else none := by
        unfold strpDay
        split <;> rename_i h <;> first | (cases h; done) | (cases h; rfl) | skip
        exact (h c rfl).elim
      rw [h2]
      unfold dayAlts
      simp only [cls2, cls1, this, rng_pos, List.nil_append, List.append_nil]
      by_cases hc : (isAsciiDigit c && c != '0') = true
      · rw [if_pos hc]; rfl
      · rw [if_neg hc]; rfl
    | cons d r =>
      cases r with
      | cons e r =>
        rw [headEnd_none]
        · unfold strpDay
          split <;> rename_i h <;> first | (cases h; done) | rfl
        · intro p hp h0
          have := dayAlts_rest hp
          rw [h0] at this
          simp only [List.length_cons, List.length_nil] at this
          omega
      | nil =>
        by_cases h0 : c = '0'
        · subst h0
          have : strpDay ['0', d] = if (isAsciiDigit d && d != '0') = true then some (d.toNat - 48) else none := rfl
          rw [this]
          rw [← rng_pos]
          have h9 : rng 1 9 '0' = none := by decide
          unfold dayAlts
          simp only [cls2, cls1, r0, r3, rng12, h9]
          cases rng 1 9 d <;> simp [headEnd, spaceDigit]
        by_cases h1 : c = '1'
        · subst h1
          have : strpDay ['1', d] = (digitVal d).map (10 + ·) := rfl
          rw [this]
          unfold dayAlts
          simp only [cls2, cls1, rng_pos, r0, r3, rng12]
          cases digitVal d <;> simp [headEnd, spaceDigit, isAsciiDigit]
        by_cases h2 : c = '2'
        · subst h2
          have : strpDay ['2', d] = (digitVal d).map (20 + ·) := rfl
          rw [this]
          unfold dayAlts
          simp only [cls2, cls1, rng_pos, r0, r3, rng12]
          cases digitVal d <;> simp [headEnd, spaceDigit, isAsciiDigit]
        by_cases h3 : c = '3'
        · subst h3
          unfold dayAlts
          simp only [cls2, cls1, rng_pos, r0, r3, rng12, rng01]
          by_cases d0 : d = '0'
          · subst d0; rfl
          by_cases d1 : d = '1'
          · subst d1; rfl
          have : strpDay ['3', d] = none := by
            unfold strpDay
            split <;> rename_i h <;> first | (cases h; done) | rfl | skip
            · cases h; exact absurd rfl d0
            · cases h; exact absurd rfl d1
          rw [this]
          simp [d0, d1, headEnd, isAsciiDigit]
        by_cases h4 : c = ' '
        · subst h4
          have : strpDay [' ', d] = if (isAsciiDigit d && d != '0') = true then some (d.toNat - 48) else none := rfl
          rw [this]
          rw [← rng_pos]
          have h9 : rng 1 9 ' ' = none := by decide
          unfold dayAlts
          simp only [cls2, cls1, r0, r3, rng12, h9, spaceDigit]
          cases rng 1 9 d <;> simp [headEnd]
        have : strpDay [c, d] = none := by
          unfold strpDay
          split <;> rename_i h <;> first | (cases h; done) | rfl | (cases h; contradiction)
        rw [this]
        have hs : spaceDigit [c, d] = [] := by unfold spaceDigit; split; (rename_i h; cases h; exact absurd rfl h4); rfl
        unfold dayAlts
        simp only [cls2, cls1, rng_pos, r0, r3, rng12, hs, if_neg h0, if_neg h1, if_neg h2, if_neg h3, List.nil_append, List.append_nil]
        split <;> rfl

/-- A month of one digit. -/
theorem strpMonth_one {c : Char} (r : List Char) : strpMonth (c :: '-' :: r) = (rng 1 9 c).map fun x => (x, r) := by
  have e : strpMonth (c :: '-' :: r) = if (isAsciiDigit c && c != '0') = true then some (c.toNat - 48, r) else none := by
    unfold strpMonth
    split <;> rename_i h <;> first | (cases h; done) | skip
    · cases h; rfl
    · cases h; rfl
    · exact (h _ _ rfl).elim
  rw [e, rng_pos]
  split <;> rfl

/-- Months of two digits. -/
theorem strpMonth_pair {c d : Char} (hd : d ≠ '-') (r : List Char) : strpMonth (c :: d :: r) =
    match eat '-' r with
    | some r' => if c = '1' then (if d = '0' then some (10, r') else if d = '1' then some (11, r') else if d = '2' then some (12, r') else none)
        else if c = '0' then (rng 1 9 d).map (fun x => (x, r')) else none
    | none => none := by
  cases r with
  | nil =>
    unfold strpMonth
    split <;> rename_i h <;> first | (cases h; done) | rfl | skip
    cases h; exact absurd rfl hd
  | cons e r =>
    rw [eat]
    by_cases he : e = '-'
    · subst he
      rw [if_pos rfl]
      dsimp only
      unfold strpMonth
      split <;> rename_i h <;> first | (cases h; rfl) | skip
      · cases h; rw [rng_pos]; split <;> rfl
      · cases h; exact absurd rfl hd
      · rename_i h1 h2 h3 h4
        have a1 : ¬ (c = '1' ∧ d = '0') := fun ⟨x, y⟩ => h1 r (by rw [x, y])
        have a2 : ¬ (c = '1' ∧ d = '1') := fun ⟨x, y⟩ => h2 r (by rw [x, y])
        have a3 : ¬ (c = '1' ∧ d = '2') := fun ⟨x, y⟩ => h3 r (by rw [x, y])
        have a4 : ¬ (c = '0') := fun x => h4 d r (by rw [x])
        rw [if_neg a4]
        by_cases hc : c = '1'
        · rw [if_pos hc, if_neg (fun h => a1 ⟨hc, h⟩), if_neg (fun h => a2 ⟨hc, h⟩), if_neg (fun h => a3 ⟨hc, h⟩)]
        · rw [if_neg hc]
    · rw [if_neg he]
      unfold strpMonth
      split <;> rename_i h <;> first | rfl | skip
      all_goals (cases h; first | exact absurd rfl he | exact absurd rfl hd)

/-- The first month that is followed by `-`. -/
theorem month_agree {β : Type} (K : Nat × List Char → Option β) (hK : ∀ m r, (∀ r', r ≠ '-' :: r') → K (m, r) = none) (cs : List Char) :
    (monthAlts cs).findSome? K = match strpMonth cs with | some (m, r) => K (m, '-' :: r) | none => none := by
  have r0 := rng_one (n := 0) (d := '0') rfl
  have r1 := rng_one (n := 1) (d := '1') rfl
  have hn : ∀ m, K (m, []) = none := fun m => hK m [] nofun
  have hd : ∀ m c r, c ≠ '-' → K (m, c :: r) = none := fun m c r h => hK m _ (fun r' e => h (by injection e))
  have he : ∀ m r, K (m, r) = match eat '-' r with | some r' => K (m, '-' :: r') | none => none := by
    intro m r
    cases r with
    | nil => exact hn m
    | cons c r =>
      rw [eat]
      by_cases h : c = '-'
      · rw [if_pos h, h]
      · rw [if_neg h, hd m c r h]
  cases cs with
  | nil => rfl
  | cons c r =>
    cases r with
    | nil =>
      have : strpMonth [c] = none := by
        unfold strpMonth
        split <;> rename_i h <;> first | (cases h; done) | rfl
      rw [this]
      unfold monthAlts
      simp only [cls2, cls1]
      cases rng 1 9 c <;> simp [hn]
    | cons d r =>
      by_cases hd' : d = '-'
      · subst hd'
        rw [strpMonth_one]
        have e1 : rng 0 2 '-' = none := by decide
        have e2 : rng 1 9 '-' = none := by decide
        unfold monthAlts
        simp only [cls2, cls1, e1, e2]
        cases rng 1 9 c <;> cases rng 1 1 c <;> cases rng 0 0 c <;> simp
      · rw [strpMonth_pair hd']
        have h3 : (cls1 (rng 1 9) (c :: d :: r)).findSome? K = none := by
          rw [cls1]
          cases rng 1 9 c with
          | none => rfl
          | some x => simp [hd x d r hd']
        unfold monthAlts
        rw [List.findSome?_append, List.findSome?_append, h3]
        simp only [cls2, r0, r1, rng02]
        by_cases c1 : c = '1'
        · subst c1
          by_cases d0 : d = '0'
          · subst d0; simp; rw [he]; cases eat '-' r <;> rfl
          by_cases d1 : d = '1'
          · subst d1; simp; rw [he]; cases eat '-' r <;> rfl
          by_cases d2 : d = '2'
          · subst d2; simp; rw [he]; cases eat '-' r <;> rfl
          simp [d0, d1, d2]
          cases eat '-' r <;> rfl
        · by_cases c0 : c = '0'
          · subst c0
            cases rng 1 9 d with
            | none => simp; cases eat '-' r <;> rfl
            | some x => simp; rw [he]; cases eat '-' r <;> rfl
          · simp [c1, c0]
            cases eat '-' r <;> rfl

theorem sameLetter_dash (c : Char) : sameLetter '-' c = true ↔ c = '-' := by
  have hl : lowerAscii '-' = '-' := by decide
  unfold sameLetter
  rw [hl, beq_iff_eq]
  constructor
  · intro h
    unfold lowerAscii at h
    split at h
    · rename_i hc
      have h2 : ('-' : Char).toNat = (Char.ofNat (c.toNat + 32)).toNat := by rw [← h]
      have h3 : (Char.ofNat (c.toNat + 32)).toNat = c.toNat + 32 := by
        have hv : (c.toNat + 32).isValidChar := by left; omega
        rw [Char.ofNat, dif_pos hv]
        rfl
      have h4 : ('-' : Char).toNat = 45 := by decide
      omega
    · exact h.symm
  · intro h
    subst h
    exact hl.symm

theorem litAlts_dash (r : List Char) : litAlts '-' r = match eat '-' r with | some r' => [r'] | none => [] := by
  cases r with
  | nil => rfl
  | cons c r =>
    rw [litAlts, eat]
    by_cases h : c = '-'
    · rw [if_pos ((sameLetter_dash c).2 h), if_pos h]
    · rw [if_neg (fun h' => h ((sameLetter_dash c).1 h')), if_neg h]

/-- The model of `DateType()` and that of `DateType(formats=['%Y-%m-%d'])` agree on every text. -/
theorem strpDate_agree (cs : List Char) : strpDate cs = (strptime [.year, .lit '-', .month, .lit '-', .day] cs).map DateTime.date := by
  unfold strpDate strptime
  simp only [readItems, readItem, digitAlts]
  cases takeDigits 4 0 cs with
  | none => rfl
  | some p =>
    obtain ⟨y, r⟩ := p
    simp only [List.map_cons, List.map_nil, List.findSome?_cons, List.findSome?_nil, litAlts_dash]
    cases eat '-' r with
    | none => rfl
    | some r =>
      simp only [List.map_cons, List.map_nil, List.findSome?_cons, List.findSome?_nil, List.findSome?_map]
      rw [month_agree]
      · cases strpMonth r with
        | none => rfl
        | some p =>
          obtain ⟨m, r⟩ := p
          have e : eat '-' ('-' :: r) = some r := rfl
          simp only [Function.comp_apply, e, List.findSome?_cons, List.findSome?_nil]
          rw [← day_agree]
          cases dayAlts r with
          | nil => rfl
          | cons q l =>
            obtain ⟨d, r'⟩ := q
            cases r' with
            | cons c r' => rfl
            | nil =>
              simp only [headEnd, List.findSome?_cons, Function.comp_apply]
              unfold mkDate mkDateTime
              have ho : offsetOk strpDefault.tz = true := rfl
              rw [if_pos ho]
              by_cases h : DateOk ⟨y, m, d⟩
              · rw [if_pos h, if_pos ⟨h, show (0 : Nat) < 24 by omega, show (0 : Nat) < 60 by omega, show (0 : Nat) < 60 by omega, show (0 : Nat) < 1000000 by omega⟩]; rfl
              · rw [if_neg h, if_neg (fun h' => h h'.1)]; rfl
      · intro m r hr
        have : eat '-' r = none := by
          cases r with
          | nil => rfl
          | cons c r => rw [eat, if_neg (fun h => hr r (by rw [h]))]
        simp only [Function.comp_apply, this, List.findSome?_nil]

/-- **C98**: `DateType()` reads what `DateType(formats=['%Y-%m-%d'])` reads. -/
theorem C98_default_is_iso (v : Val) (iapp : Val) : (dateTypeF []).toNative iapp v = (dateTypeF [[.year, .lit '-', .month, .lit '-', .day]]).toNative iapp v := by
  show dateNative [] v = dateNative [fun cs => (strptime [.year, .lit '-', .month, .lit '-', .day] cs).map DateTime.date] v
  have e : strpDate = fun cs => (strptime [.year, .lit '-', .month, .lit '-', .day] cs).map DateTime.date := funext strpDate_agree
  unfold dateNative dateFormats
  rw [e]
  rfl

/-! ## What fails -/

/-- `%Y-%m-%d` -/
def isoFormat : List Item := [.year, .lit '-', .month, .lit '-', .day]
/-- `%d/%m/%Y` -/
def dayFirst : List Item := [.day, .lit '/', .month, .lit '/', .year]
/-- 3 April 2024, 17:30. -/
def sampleT : DateTime := ⟨⟨2024, 4, 3⟩, 17, 30, 0, 0, none⟩

/-- The formats as they are written. -/
example : parseFormat "%Y-%m-%d".toList = some isoFormat ∧ parseFormat "%d/%m/%Y".toList = some dayFirst ∧ parseFormat "%Y-%m-%dT%H:%M:%S.%f%z".toList = some standardFormat := by decide

/-- **C98, what fails.**  `DateType(formats=['%d/%m/%Y'])` refuses its own export: dates are always exported with `%Y-%m-%d`. -/
theorem C98_counterexample_date (eapp iapp : Val) :
    (dateTypeF [dayFirst]).toNative iapp (.str "03/04/2024") = .ok (.date ⟨2024, 4, 3⟩) ∧ (dateTypeF [dayFirst]).toPrimitive eapp (.date ⟨2024, 4, 3⟩) = .ok (.str "2024-04-03") ∧
    (dateTypeF [dayFirst]).toNative iapp (.str "2024-04-03") = convErr "parse" := ⟨rfl, rfl, rfl⟩

/-- **C98, what fails.**  Earlier formats win: with `['%Y-%d-%m', '%Y-%m-%d']` the text of 3 April comes back as 4 March. -/
theorem C98_counterexample_order (eapp iapp : Val) :
    (dateTypeF [[.year, .lit '-', .day, .lit '-', .month], isoFormat]).toPrimitive eapp (.date ⟨2024, 4, 3⟩) = .ok (.str "2024-04-03") ∧
    (dateTypeF [[.year, .lit '-', .day, .lit '-', .month], isoFormat]).toNative iapp (.str "2024-04-03") = .ok (.date ⟨2024, 3, 4⟩) := ⟨rfl, rfl⟩

/-- **C98, what fails.**  With `%z` in the format a value without zone is exported without offset, and then refused. -/
theorem C98_counterexample_naive (eapp iapp : Val) :
    (dateTimeTypeF {} [standardFormat] none).toPrimitive eapp (.datetime sampleT) = .ok (.str "2024-04-03T17:30:00.000000") ∧
    (dateTimeTypeF {} [standardFormat] none).toNative iapp (.str "2024-04-03T17:30:00.000000") = convErr "parse" := ⟨rfl, rfl⟩

/-- **C98, what fails.**  A format without the year can write the 29th of February, but not read it: there was none in 1900. -/
theorem C98_counterexample_leap_day :
    strftime ⟨⟨2024, 2, 29⟩, 0, 0, 0, 0, none⟩ [.day, .lit '.', .month] = some "29.02".toList ∧ strptime [.day, .lit '.', .month] "29.02".toList = none ∧
    strptime [.day, .lit '.', .month] "28.02".toList = some ⟨⟨1900, 2, 28⟩, 0, 0, 0, 0, none⟩ := by decide +kernel

/-- **C98, what fails.**  Digits after an offset are read as its seconds: the condition `ZonesApart` is needed. -/
theorem C98_counterexample_zone :
    strftime { sampleT with tz := some 3600 } [.zone, .minute, .day, .year, .month] = some "+01003003202404".toList ∧
    (strptime [.zone, .minute, .day, .year, .month] "+01003003202404".toList) ≠ some { sampleT with tz := some 3600, h := 0 } := by decide +kernel

/-- **C98, what fails.**  A year before 1000 is not padded, and is not read. -/
theorem C98_counterexample_early : strftime ⟨⟨987, 2, 3⟩, 0, 0, 0, 0, none⟩ isoFormat = some "987-02-03".toList ∧ strptime isoFormat "987-02-03".toList = none := by decide +kernel

/-! ## The hypotheses are met -/

/-- `%d.%m.%Y  %H:%M:%S,%f %z!` -/
def sampleFormat : List Item := [.day, .lit '.', .month, .lit '.', .year, .ws [' ', ' '], .hour, .lit ':', .minute, .lit ':', .second, .lit ',', .micro, .ws [' '], .zone, .lit '!']
/-- A datetime with an offset of seconds. -/
def sampleZ : DateTime := ⟨⟨2024, 2, 29⟩, 23, 59, 59, 999999, some (-12601)⟩

/-- `C98_roundtrip`, `C98_complete`. -/
example : DateTimeOk sampleZ ∧ FormatOk sampleFormat ∧ ShowOk sampleFormat sampleZ ∧ Item.year2 ∉ sampleFormat ∧ Complete sampleFormat sampleZ ∧
    strftime sampleZ sampleFormat = some "29.02.2024  23:59:59,999999 -033001!".toList := by
  refine ⟨by decide, ?_, ⟨fun _ => by decide, fun _ => nofun⟩, by decide, by unfold Complete; decide, by decide +kernel⟩
  simp [FormatOk, sampleFormat, AfterSpace, AfterZone]
  decide

/-- `C98_accepts`: two digits of the year, `%d` with a space, seconds of a leap second. -/
example : strptime [.year2, .lit '-', .day, .lit '-', .month] "68- 7-1".toList = some ⟨⟨2068, 1, 7⟩, 0, 0, 0, 0, none⟩ ∧
    strptime [.second] "61".toList = none := by decide +kernel

/-- `C98_datetime_field`: an earlier format does not read the text. -/
example : parseFormat "%d.%m.%Y  %H:%M:%S,%f %z!".toList = some sampleFormat ∧ ZonesApart sampleFormat ∧ offsetOk sampleZ.tz = true ∧
    validateTz {} .none (.datetime sampleZ) = .ok () ∧ ∀ g ∈ [isoFormat], strptime g "29.02.2024  23:59:59,999999 -033001!".toList = none := by
  refine ⟨by decide +kernel, ?_, by decide, rfl, by decide +kernel⟩
  simp [ZonesApart, sampleFormat, AfterZone]
  decide

/-- `C98_date_field`: the second of two formats. -/
example (iapp : Val) : (dateTypeF [isoFormat, dayFirst]).toNative iapp (.str "03/04/2024") = .ok (.date ⟨2024, 4, 3⟩) := rfl

end Verif.Types
