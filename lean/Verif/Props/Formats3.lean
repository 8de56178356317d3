import Verif.Props.Formats2
import Mathlib.Tactic.IntervalCases

/-!
# C98: every text that spells a value is read

The converse of `Props/Formats2`: one or two digits, one to six digits of a fraction, offsets in every form.
-/
namespace Verif.Types
open Verif.Py

/-! ## Specification -/

/-- All decimal digits of the text are ASCII digits. -/
def AsciiDigits (s : List Char) : Prop := ∀ c ∈ s, ∀ d, digitVal c = some d → c = digit d

/-- What follows a piece of variable width cannot be taken for a part of it: the end, white space, a character that is no digit (nor a colon, after an offset), or an offset. -/
def Break (zone : Bool) : List Item → Prop
  | [] => True
  | .ws _ :: _ => True
  | .lit c :: _ => digitVal c = none ∧ (zone = true → c ≠ ':')
  | .zone :: _ => zone = false
  | _ => False

/-- Every piece of variable width is followed by such a break. -/
def Apart : List Item → Prop
  | [] => True
  | .lit _ :: its => Apart its
  | .ws _ :: its => Apart its
  | .year :: its => Apart its
  | .year2 :: its => Apart its
  | .zone :: its => Break true its ∧ Apart its
  | _ :: its => Break false its ∧ Apart its

/-! ## Pieces -/

/-- The text does not start with a digit. -/
def Stops (r : List Char) : Prop := ∀ c r', r = c :: r' → digitVal c = none

theorem rng_of_none {c : Char} (h : digitVal c = none) (lo hi : Nat) (hh : hi ≤ 9) : rng lo hi c = none := by
  cases hr : rng lo hi c with
  | none => rfl
  | some d => rw [(rng_val hh hr).1] at h; cases h

theorem small_cases {w : List Char} {n : Nat} (hs : SmallNumber w n) (ha : AsciiDigits w) : (w = [digit n] ∧ n < 10) ∨ (w = two n ∧ n < 100) := by
  obtain ⟨hl, hn⟩ := hs
  match w, hl, hn, ha with
  | [], hl, _, _ => simp at hl
  | [c], _, hn, ha =>
    left
    rw [numeral] at hn
    cases hd : digitVal c with
    | none => rw [hd] at hn; cases hn
    | some d =>
      rw [hd] at hn
      simp only [numeral, Option.some.injEq] at hn
      have hc := ha c (List.mem_cons_self ..) d hd
      have := digitVal_lt hd
      have hdn : d = n := by omega
      subst hdn
      exact ⟨by rw [hc], this⟩
  | [c, e], _, hn, ha =>
    right
    rw [numeral] at hn
    cases hd : digitVal c with
    | none => rw [hd] at hn; cases hn
    | some d =>
      rw [hd] at hn
      dsimp only at hn
      rw [numeral] at hn
      cases he : digitVal e with
      | none => rw [he] at hn; cases hn
      | some x =>
        rw [he] at hn
        simp only [numeral, Option.some.injEq] at hn
        have hc := ha c (List.mem_cons_self ..) d hd
        have hc' := ha e (by simp) x he
        have h1 := digitVal_lt hd
        have h2 := digitVal_lt he
        have e1 : d = n / 10 := by omega
        have e2 : x = n % 10 := by omega
        refine ⟨?_, by omega⟩
        rw [hc, hc', e1, e2]
        rfl
  | _ :: _ :: _ :: _, hl, _, _ => simp at hl

theorem twoDigits_two {w : List Char} {n : Nat} (hs : TwoDigits w n) (ha : AsciiDigits w) : w = two n ∧ n < 100 := by
  rcases small_cases ⟨.inr hs.1, hs.2⟩ ha with ⟨h1, _⟩ | h
  · have := hs.1; rw [h1] at this; cases this
  · exact h

theorem cls2_stop (a b : Char → Option Nat) (c : Char) {r : List Char} (hr : ∀ d r', r = d :: r' → b d = none) : cls2 a b (c :: r) = [] := by
  cases r with
  | nil => rfl
  | cons d r =>
    rw [cls2, hr d r rfl]
    cases a c <;> rfl

theorem cls1_digit (a : Char → Option Nat) {n : Nat} (h : a (digit n) = some n) (r : List Char) : cls1 a (digit n :: r) = [(n, r)] := by rw [cls1, h]

theorem stops_rng {r : List Char} (hr : Stops r) {lo hi : Nat} (hh : hi ≤ 9) : ∀ d r', r = d :: r' → rng lo hi d = none :=
  fun d r' h => rng_of_none (hr d r' h) lo hi hh

theorem monthAlts_one {n : Nat} (h1 : 1 ≤ n) (h2 : n < 10) {r : List Char} (hr : Stops r) : ∃ tl, monthAlts (digit n :: r) = (n, r) :: tl := by
  unfold monthAlts
  rw [cls2_stop _ _ _ (stops_rng hr (by omega)), cls2_stop _ _ _ (stops_rng hr (by omega)), cls1_digit _ (rng_some (by omega) h1 (by omega))]
  exact ⟨_, rfl⟩

theorem dayAlts_one {n : Nat} (h1 : 1 ≤ n) (h2 : n < 10) {r : List Char} (hr : Stops r) : ∃ tl, dayAlts (digit n :: r) = (n, r) :: tl := by
  unfold dayAlts
  rw [cls2_stop _ _ _ (stops_rng hr (by omega)), cls2_stop _ _ _ hr, cls2_stop _ _ _ (stops_rng hr (by omega)),
    cls1_digit _ (rng_some (by omega) h1 (by omega))]
  exact ⟨_, rfl⟩

theorem rng_space (lo hi : Nat) : rng lo hi ' ' = none := by
  unfold rng
  rw [if_neg]
  rintro ⟨h, -⟩
  have : (' ' : Char).toNat = 32 := rfl
  omega

theorem cls2_space (a b : Char → Option Nat) (ha : a ' ' = none) (r : List Char) : cls2 a b (' ' :: r) = [] := by
  cases r with
  | nil => rfl
  | cons d r => rw [cls2, ha]

theorem dayAlts_space {n : Nat} (h1 : 1 ≤ n) (h2 : n < 10) (r : List Char) : dayAlts (' ' :: digit n :: r) = [(n, r)] := by
  unfold dayAlts
  rw [cls2_space _ _ (rng_space ..), cls2_space _ _ (rng_space ..), cls2_space _ _ (rng_space ..), cls1, rng_space, spaceDigit,
    cls1_digit _ (rng_some (by omega) h1 (by omega))]
  rfl

theorem hourAlts_one {n : Nat} (h2 : n < 10) {r : List Char} (hr : Stops r) : ∃ tl, hourAlts (digit n :: r) = (n, r) :: tl := by
  unfold hourAlts
  rw [cls2_stop _ _ _ (stops_rng hr (by omega)), cls2_stop _ _ _ hr, cls1_digit _ (digitVal_digit n h2)]
  exact ⟨_, rfl⟩

theorem minuteAlts_one {n : Nat} (h2 : n < 10) {r : List Char} (hr : Stops r) : ∃ tl, minuteAlts (digit n :: r) = (n, r) :: tl := by
  unfold minuteAlts
  rw [cls2_stop _ _ _ hr, cls1_digit _ (digitVal_digit n h2)]
  exact ⟨_, rfl⟩

theorem secondAlts_one {n : Nat} (h2 : n < 10) {r : List Char} (hr : Stops r) : ∃ tl, secondAlts (digit n :: r) = (n, r) :: tl := by
  unfold secondAlts
  rw [cls2_stop _ _ _ (stops_rng hr (by omega)), cls2_stop _ _ _ hr, cls1_digit _ (digitVal_digit n h2)]
  exact ⟨_, rfl⟩

theorem takeAscii_append : ∀ {w : List Char} {a m : Nat} (j : Nat) (r : List Char), AsciiDigits w → numeral a w = some m →
    takeAscii (w.length + j) a (w ++ r) = takeAscii j m r
  | [], a, m, j, r, _, h => by rw [numeral] at h; cases h; rw [List.length_nil, Nat.zero_add]; rfl
  | c :: w, a, m, j, r, ha, h => by
    rw [numeral] at h
    cases hd : digitVal c with
    | none => rw [hd] at h; cases h
    | some d =>
      rw [hd] at h
      dsimp only at h
      have hc := ha c (List.mem_cons_self ..) d hd
      rw [List.length_cons, show w.length + 1 + j = (w.length + j) + 1 by omega, List.cons_append, takeAscii, hc, rng_some (by omega) (by omega) (by have := digitVal_lt hd; omega)]
      exact takeAscii_append j r (fun x hx => ha x (List.mem_cons_of_mem _ hx)) h

theorem takeAscii_stop (j m : Nat) {r : List Char} (hr : Stops r) : takeAscii (j + 1) m r = none := by
  cases r with
  | nil => rfl
  | cons c r => rw [takeAscii, rng_of_none (hr c r rfl) 0 9 (by omega)]

theorem microOf_long {w r : List Char} {m : Nat} (ha : AsciiDigits w) (h : numeral 0 w = some m) (hr : Stops r) {k : Nat} (hk : w.length < k) :
    microOf k (w ++ r) = [] := by
  unfold microOf
  obtain ⟨j, rfl⟩ : ∃ j, k = w.length + (j + 1) := ⟨k - w.length - 1, by omega⟩
  rw [takeAscii_append (j + 1) r ha h, takeAscii_stop j m hr]

theorem microOf_exact {w r : List Char} {m : Nat} (ha : AsciiDigits w) (h : numeral 0 w = some m) : microOf w.length (w ++ r) = [(m * 10 ^ (6 - w.length), r)] := by
  unfold microOf
  have := takeAscii_append 0 r ha h
  rw [Nat.add_zero] at this
  rw [this, takeAscii]

theorem microAlts_any {w r : List Char} {m n : Nat} (ha : AsciiDigits w) (h1 : 1 ≤ w.length) (h2 : w.length ≤ 6) (h : numeral 0 w = some m) (hr : Stops r)
    (hn : n * 10 ^ w.length = m * 1000000) : ∃ tl, microAlts (w ++ r) = (n, r) :: tl := by
  have he := microOf_exact (r := r) ha h
  have hl : ∀ k, w.length < k → microOf k (w ++ r) = [] := fun k hk => microOf_long ha h hr hk
  have hv : m * 10 ^ (6 - w.length) = n := by
    have hp : 0 < 10 ^ w.length := Nat.pos_of_ne_zero (by positivity)
    apply Nat.eq_of_mul_eq_mul_right hp
    rw [hn, Nat.mul_assoc, ← Nat.pow_add, show 6 - w.length + w.length = 6 by omega]
  rw [hv] at he
  unfold microAlts
  generalize w.length = L at h1 h2 he hl
  interval_cases L
  · rw [hl 6 (by omega), hl 5 (by omega), hl 4 (by omega), hl 3 (by omega), hl 2 (by omega), he]; exact ⟨_, rfl⟩
  · rw [hl 6 (by omega), hl 5 (by omega), hl 4 (by omega), hl 3 (by omega), he]; exact ⟨_, rfl⟩
  · rw [hl 6 (by omega), hl 5 (by omega), hl 4 (by omega), he]; exact ⟨_, rfl⟩
  · rw [hl 6 (by omega), hl 5 (by omega), he]; exact ⟨_, rfl⟩
  · rw [hl 6 (by omega), he]; exact ⟨_, rfl⟩
  · rw [he]; exact ⟨_, rfl⟩

theorem takeDigits_append : ∀ {w : List Char} {a m : Nat} (r : List Char), numeral a w = some m → takeDigits w.length a (w ++ r) = some (m, r)
  | [], a, m, r, h => by rw [numeral] at h; cases h; rfl
  | c :: w, a, m, r, h => by
    rw [numeral] at h
    cases hd : digitVal c with
    | none => rw [hd] at h; cases h
    | some d =>
      rw [hd] at h
      dsimp only at h
      rw [List.length_cons, List.cons_append, takeDigits, hd]
      exact takeDigits_append r h

theorem digitAlts_append {w : List Char} {k n : Nat} (r : List Char) (hk : w.length = k) (h : numeral 0 w = some n) : digitAlts k (w ++ r) = [(n, r)] := by
  unfold digitAlts
  subst hk
  rw [takeDigits_append r h]

/-! ### Offsets -/

theorem colon_sep {sep : List Char} (hs : sep = [] ∨ sep = [':']) {n : Nat} (hn : n < 100) (r : List Char) :
    colon (sep ++ (two n ++ r)) = (decide (sep = [':']), two n ++ r) := by
  rcases hs with rfl | rfl
  · rw [List.nil_append, colon_two n r hn]; rfl
  · rfl

theorem zoneTail_stop (sign : Char) (h m : Nat) (k : Bool) {r : List Char} (hr : NoSeconds r) : zoneTail sign h m k r = [(zoneSecs sign h m 0, r)] := by
  unfold zoneTail
  have hc : (colon r).2 = r := by
    cases r with
    | nil => rfl
    | cons c r =>
      have := (hr c r rfl).1
      unfold colon
      split
      · rename_i r' he
        injection he with e1 e2
        exact absurd e1 this
      · rfl
  have : cls2 (rng 0 5) digitVal r = [] := by
    match r, hr with
    | [], _ => rfl
    | [_], _ => rfl
    | c :: d :: r, hr => rw [cls2, (hr c _ rfl).2]
  rw [hc, this]
  rfl

theorem zoneAlts_any {w r : List Char} {o : Int} (hw : OffsetText w o) (ha : AsciiDigits w) (hr : NoSeconds r) : ∃ tl, zoneAlts (w ++ r) = (o, r) :: tl := by
  rcases hw with ⟨rfl, rfl⟩ | ⟨sign, sep, hs, hsep, hh, mm, h, m, h1, h2, h3, hw⟩
  · exact ⟨[], rfl⟩
  · have hsZ : sign ≠ 'Z' := by rcases hs with rfl | rfl <;> decide
    have hz : ∀ x, zoneAlts (sign :: x) = match takeDigits 2 0 x with
        | some (h, r) => (cls2 (rng 0 5) digitVal (colon r).2).flatMap fun p => zoneTail sign h p.1 (colon r).1 p.2
        | none => [] := by
      intro x
      unfold zoneAlts
      split
      · rename_i he; injection he with e1 _; exact absurd e1 hsZ
      · rename_i c r0 _ he
        injection he with e1 e2
        subst e1; subst e2
        rw [if_pos hs]
        rfl
      · rename_i he; cases he
    rcases hw with ⟨rfl, rfl⟩ | ⟨ss, s, h4, h5, rfl, rfl⟩
    · have a1 : AsciiDigits hh := fun c hc => ha c (by simp [hc])
      have a2 : AsciiDigits mm := fun c hc => ha c (by simp [hc])
      obtain ⟨e1, e2⟩ := twoDigits_two h2 a2
      have t := takeDigits_append (w := hh) (a := 0) (sep ++ (two m ++ r)) h1.2
      rw [h1.1] at t
      rw [show sign :: hh ++ sep ++ mm ++ r = sign :: (hh ++ (sep ++ (mm ++ r))) by simp, e1, hz, t]
      dsimp only
      rw [colon_sep hsep e2, sixty_two h3]
      simp only [List.flatMap_cons, List.flatMap_nil, List.append_nil]
      rw [zoneTail_stop sign h m _ hr]
      refine ⟨[], ?_⟩
      unfold zoneSecs
      push_cast
      rw [Int.add_zero]
    · have a1 : AsciiDigits hh := fun c hc => ha c (by simp [hc])
      have a2 : AsciiDigits mm := fun c hc => ha c (by simp [hc])
      have a3 : AsciiDigits ss := fun c hc => ha c (by simp [hc])
      obtain ⟨e1, e2⟩ := twoDigits_two h2 a2
      obtain ⟨e3, e4⟩ := twoDigits_two h4 a3
      have t := takeDigits_append (w := hh) (a := 0) (sep ++ (two m ++ (sep ++ (two s ++ r)))) h1.2
      rw [h1.1] at t
      rw [show sign :: hh ++ sep ++ mm ++ sep ++ ss ++ r = sign :: (hh ++ (sep ++ (mm ++ (sep ++ (ss ++ r))))) by simp, e1, e3, hz, t]
      dsimp only
      rw [colon_sep hsep e2, sixty_two h3]
      simp only [List.flatMap_cons, List.flatMap_nil, List.append_nil]
      unfold zoneTail
      rw [colon_sep hsep e4, sixty_two h5]
      simp only [List.map_cons, List.map_nil, if_true]
      refine ⟨[(zoneSecs sign h m 0, sep ++ (two s ++ r))], ?_⟩
      rw [List.cons_append, List.nil_append]
      congr 2

/-! ### What follows -/

theorem letter_digit (n : Nat) (h1 : 65 ≤ n) (h2 : n ≤ 90) : digitVal (Char.ofNat (n + 32)) = none ∧ isSpace (Char.ofNat (n + 32)) = false ∧ Char.ofNat (n + 32) ≠ ':' := by
  interval_cases n <;> decide

theorem lowerAscii_id {c : Char} (h : (∃ d, digitVal c = some d) ∨ isSpace c = true ∨ c = ':') : lowerAscii c = c := by
  unfold lowerAscii
  rw [if_neg]
  rintro ⟨h1, h2⟩
  have key : ∀ n, 65 ≤ n → n ≤ 90 → digitVal (Char.ofNat n) = none ∧ isSpace (Char.ofNat n) = false ∧ Char.ofNat n ≠ ':' := by
    intro n h1 h2
    interval_cases n <;> decide
  have := key c.toNat h1 h2
  rw [Char.ofNat_toNat] at this
  rcases h with ⟨d, hd⟩ | h | h
  · rw [this.1] at hd; cases hd
  · rw [this.2.1] at h; cases h
  · exact this.2.2 h

/-- A character of the text that stands for one of the format is a digit, a blank or a colon only if this is. -/
theorem sameLetter_keeps {c d : Char} (h : sameLetter c d = true) (hd : (∃ x, digitVal d = some x) ∨ isSpace d = true ∨ d = ':') : c = d := by
  unfold sameLetter at h
  have h := beq_iff_eq.1 h
  rw [lowerAscii_id hd] at h
  unfold lowerAscii at h
  split at h
  · rename_i hc
    have := letter_digit c.toNat hc.1 hc.2
    rw [h] at this
    rcases hd with ⟨x, hx⟩ | hd | hd
    · rw [this.1] at hx; cases hx
    · rw [this.2.1] at hd; cases hd
    · exact absurd hd this.2.2
  · exact h

theorem offset_first {w : List Char} {o : Int} (h : OffsetText w o) : ∃ c r, w = c :: r ∧ (c = 'Z' ∨ c = '+' ∨ c = '-') := by
  rcases h with ⟨rfl, -⟩ | ⟨sign, sep, hs, -, hh, mm, h, m, -, -, -, hw⟩
  · exact ⟨_, _, rfl, .inl rfl⟩
  · rcases hw with ⟨rfl, -⟩ | ⟨ss, s, -, -, rfl, -⟩
    · exact ⟨_, _, rfl, .inr hs⟩
    · exact ⟨_, _, rfl, .inr hs⟩

/-- After a break, no digit (and after an offset, no colon) follows. -/
theorem break_first {t : DateTime} {z : Bool} {its : List Item} {r : List Char} (hb : Break z its) (hs : Spelled t its r) (c : Char) (r' : List Char)
    (hc : r = c :: r') : digitVal c = none ∧ (z = true → c ≠ ':') := by
  cases its with
  | nil => rw [Spelled] at hs; rw [hs] at hc; cases hc
  | cons it its =>
    obtain ⟨w, r1, h1, h2, -⟩ := hs
    cases it with
    | lit x =>
      obtain ⟨d, hw, hd⟩ := h2
      rw [hw] at h1
      rw [h1] at hc
      injection hc with e1 e2
      subst e1
      refine ⟨?_, fun hz he => ?_⟩
      · cases hx : digitVal d with
        | none => rfl
        | some y =>
          have := sameLetter_keeps hd (.inl ⟨y, hx⟩)
          have hb1 := hb.1
          rw [this, hx] at hb1
          cases hb1
      · have := sameLetter_keeps hd (.inr (.inr he))
        exact hb.2 hz (by rw [this, he])
    | ws x =>
      obtain ⟨g1, g2⟩ := h2
      cases w with
      | nil => exact absurd rfl g1
      | cons d w =>
        rw [h1] at hc
        injection hc with e1 e2
        subst e1
        have hsp := g2 d (List.mem_cons_self ..)
        refine ⟨?_, fun _ he => ?_⟩
        · cases hx : digitVal d with
          | none => rfl
          | some y => rw [not_space_of_digit hx] at hsp; cases hsp
        · subst he; exact absurd hsp (by decide)
    | zone =>
      obtain ⟨o, -, ho⟩ := h2
      obtain ⟨d, w', e1, e2⟩ := offset_first ho
      rw [h1, e1] at hc
      injection hc with e3 e4
      subst e3
      refine ⟨?_, fun hz => ?_⟩
      · rcases e2 with rfl | rfl | rfl <;> decide
      · have : z = false := hb
        rw [this] at hz; cases hz
    | _ => exact hb.elim

theorem break_stops {t : DateTime} {z : Bool} {its : List Item} {r : List Char} (hb : Break z its) (hs : Spelled t its r) : Stops r :=
  fun c r' hc => (break_first hb hs c r' hc).1

theorem break_noSeconds {t : DateTime} {its : List Item} {r : List Char} (hb : Break true its) (hs : Spelled t its r) : NoSeconds r :=
  fun c r' hc => ⟨(break_first hb hs c r' hc).2 rfl, rng_of_none (break_first hb hs c r' hc).1 0 5 (by omega)⟩

theorem numeral_first {w : List Char} {a n : Nat} (h : numeral a w = some n) (c : Char) (r : List Char) (hc : w = c :: r) : isSpace c = false := by
  subst hc
  rw [numeral] at h
  cases hd : digitVal c with
  | none => rw [hd] at h; cases h
  | some d => exact not_space_of_digit hd

/-- After white space, the text can be cut so that no white space follows. -/
theorem spelled_space {t : DateTime} {its : List Item} {w r : List Char} (hsh : Shape its) (ha : AfterSpace its) (hw : w ≠ []) (hsp : ∀ c ∈ w, isSpace c = true)
    (hs : Spelled t its r) : ∃ w' r', w ++ r = w' ++ r' ∧ w' ≠ [] ∧ (∀ c ∈ w', isSpace c = true) ∧ Spelled t its r' ∧ ∀ c x, r' = c :: x → isSpace c = false := by
  have same : (∀ c x, r = c :: x → isSpace c = false) → ∃ w' r', w ++ r = w' ++ r' ∧ w' ≠ [] ∧ (∀ c ∈ w', isSpace c = true) ∧ Spelled t its r' ∧
      ∀ c x, r' = c :: x → isSpace c = false := fun h => ⟨w, r, rfl, hw, hsp, hs, h⟩
  have num : ∀ {w1 r1 : List Char} {n : Nat}, r = w1 ++ r1 → w1 ≠ [] → numeral 0 w1 = some n → ∀ c x, r = c :: x → isSpace c = false := by
    intro w1 r1 n e hne hn c x hc
    cases w1 with
    | nil => exact absurd rfl hne
    | cons d w1 =>
      rw [e] at hc
      injection hc with e1 _
      subst e1
      exact numeral_first hn d w1 rfl
  have small : ∀ {w1 r1 : List Char} {n : Nat}, r = w1 ++ r1 → SmallNumber w1 n → ∀ c x, r = c :: x → isSpace c = false := by
    intro w1 r1 n e hn
    refine num e ?_ hn.2
    rintro rfl
    rcases hn.1 with h | h <;> cases h
  cases its with
  | nil => rw [Spelled] at hs; exact same fun c x hc => by rw [hs] at hc; cases hc
  | cons it its =>
    obtain ⟨w1, r1, h1, h2, h3⟩ := hs
    cases it with
    | ws x => exact ha.elim
    | lit x =>
      obtain ⟨d, hw1, hd⟩ := h2
      refine same fun c y hc => ?_
      rw [h1, hw1] at hc
      injection hc with e1 _
      subst e1
      cases hx : isSpace d with
      | false => rfl
      | true => have := sameLetter_keeps hd (.inr (.inl hx)); rw [← this, hsh.1] at hx; cases hx
    | zone =>
      obtain ⟨o, -, ho⟩ := h2
      obtain ⟨d, w', e1, e2⟩ := offset_first ho
      refine same fun c y hc => ?_
      rw [h1, e1] at hc
      injection hc with e3 _
      subst e3
      rcases e2 with rfl | rfl | rfl <;> decide
    | year =>
      have : w1 ≠ [] := by rintro rfl; cases h2.1
      exact same (num h1 this h2.2)
    | year2 =>
      obtain ⟨n, hn, -⟩ := h2
      have : w1 ≠ [] := by rintro rfl; cases hn.1
      exact same (num h1 this hn.2)
    | micro =>
      obtain ⟨g1, -, n, hn, -⟩ := h2
      have : w1 ≠ [] := by rintro rfl; cases g1
      exact same (num h1 this hn)
    | month => exact same (small h1 h2)
    | hour => exact same (small h1 h2)
    | minute => exact same (small h1 h2)
    | second => exact same (small h1 h2)
    | day =>
      rcases h2 with h2 | ⟨d, rfl, h2⟩
      · exact same (small h1 h2)
      · refine ⟨w ++ [' '], d :: r1, by rw [h1]; simp, by simp, ?_, ⟨[d], r1, rfl, .inl h2, h3⟩, ?_⟩
        · intro c hc
          rcases List.mem_append.1 hc with hc | hc
          · exact hsp c hc
          · rw [List.mem_singleton.1 hc]; decide
        · intro c x hc
          injection hc with e1 _
          subst e1
          exact numeral_first h2.2 d [] rfl

/-! ## The theorem -/

theorem spelled_head {t : DateTime} (ht : DateTimeOk t) (t0 : DateTime) {it : Item} {its : List Item} {w r : List Char} (ha : AsciiDigits w)
    (hb : Apart (it :: its)) (hw : Says t it w) (hr : Spelled t its r) (hn : ∀ x, it ≠ .ws x) : ∃ tl, readItem t0 (w ++ r) it = (put t t0 it, r) :: tl := by
  have hmap : ∀ {α : Type} {l : List (α × List Char)} {a : α} {f : α × List Char → DateTime × List Char}, (∃ tl, l = (a, r) :: tl) → ∃ tl, l.map f = f (a, r) :: tl := by
    rintro α l a f ⟨tl, rfl⟩
    exact ⟨_, rfl⟩
  obtain ⟨⟨hy1, hy2, hm1, hm2, hd1, hd2⟩, hh, hmi, hse, hus⟩ := id ht
  have hd3 := daysInMonth_le t.date.y t.date.m
  cases it with
  | year => exact hmap (l := digitAlts 4 _) ⟨[], digitAlts_append r hw.1 hw.2⟩
  | year2 =>
    obtain ⟨n, h1, h2⟩ := hw
    obtain ⟨-, h3⟩ := twoDigits_two h1 ha
    obtain ⟨tl, e⟩ := hmap (l := digitAlts 2 _) (f := fun p => ({ t0 with date := { t0.date with y := century p.1 } }, p.2)) ⟨[], digitAlts_append r h1.1 h1.2⟩
    refine ⟨tl, ?_⟩
    have : century (t.date.y % 100) = century n := by
      have : t.date.y = century n := h2
      rw [this, century_century n h3]
    rw [put, this]
    exact e
  | month =>
    rcases small_cases hw ha with ⟨rfl, h⟩ | ⟨rfl, h⟩
    · exact hmap (monthAlts_one hm1 h (break_stops hb.1 hr))
    · exact hmap (monthAlts_two hm1 hm2 r)
  | day =>
    rcases hw with hw | ⟨c, rfl, hw⟩
    · rcases small_cases hw ha with ⟨rfl, h⟩ | ⟨rfl, h⟩
      · exact hmap (dayAlts_one hd1 h (break_stops hb.1 hr))
      · exact hmap (dayAlts_two hd1 (by omega) r)
    · have ha' : AsciiDigits [c] := fun x hx => ha x (List.mem_cons_of_mem _ hx)
      rcases small_cases hw ha' with ⟨h1, h⟩ | ⟨h1, h⟩
      · injection h1 with h1
        subst h1
        exact hmap (l := dayAlts _) ⟨[], dayAlts_space hd1 h r⟩
      · have := congrArg List.length h1
        simp [two] at this
  | hour =>
    rcases small_cases hw ha with ⟨rfl, h⟩ | ⟨rfl, h⟩
    · exact hmap (hourAlts_one h (break_stops hb.1 hr))
    · exact hmap (hourAlts_two hh r)
  | minute =>
    rcases small_cases hw ha with ⟨rfl, h⟩ | ⟨rfl, h⟩
    · exact hmap (minuteAlts_one h (break_stops hb.1 hr))
    · exact hmap (minuteAlts_two hmi r)
  | second =>
    rcases small_cases hw ha with ⟨rfl, h⟩ | ⟨rfl, h⟩
    · exact hmap (secondAlts_one h (break_stops hb.1 hr))
    · exact hmap (secondAlts_two hse r)
  | micro =>
    obtain ⟨h1, h2, n, h3, h4⟩ := hw
    exact hmap (microAlts_any ha h1 h2 h3 (break_stops hb.1 hr) h4)
  | zone =>
    obtain ⟨o, h1, h2⟩ := hw
    obtain ⟨tl, e⟩ := hmap (f := fun p : Int × List Char => ({ t0 with tz := some p.1 }, p.2)) (zoneAlts_any h2 ha (break_noSeconds hb.1 hr))
    refine ⟨tl, ?_⟩
    rw [put, h1]
    exact e
  | lit x =>
    obtain ⟨d, rfl, hd⟩ := hw
    refine ⟨[], ?_⟩
    show (litAlts x (d :: r)).map _ = _
    rw [litAlts, if_pos hd]
    rfl
  | ws x => exact absurd rfl (hn x)

theorem apart_tail {it : Item} {its : List Item} (h : Apart (it :: its)) : Apart its := by
  cases it with
  | lit _ => exact h
  | ws _ => exact h
  | year => exact h
  | year2 => exact h
  | _ => exact h.2

theorem readItems_all {t : DateTime} (ht : DateTimeOk t) : ∀ (its : List Item) (t0 : DateTime) (s : List Char), Shape its → Apart its → AsciiDigits s → Spelled t its s →
    readItems its t0 s = some (its.foldl (put t) t0, [])
  | [], t0, s, _, _, _, h => by rw [Spelled] at h; rw [h]; rfl
  | it :: its, t0, s, hsh, hb, ha, h => by
    have step : ∀ w r, s = w ++ r → Spelled t its r → (∃ tl, readItem t0 (w ++ r) it = (put t t0 it, r) :: tl) → readItems (it :: its) t0 s = some ((it :: its).foldl (put t) t0, []) := by
      rintro w r rfl h2 ⟨tl, e⟩
      have ih := readItems_all ht its (put t t0 it) r (shape_tail hsh) (apart_tail hb) (fun c hc => ha c (List.mem_append_right _ hc)) h2
      rw [readItems, e, List.findSome?_cons]
      dsimp only
      rw [ih]
      rfl
    obtain ⟨w, r, rfl, h1, h2⟩ := h
    by_cases hw : ∃ x, it = .ws x
    · obtain ⟨x, rfl⟩ := hw
      obtain ⟨-, -, s3, s4⟩ := hsh
      obtain ⟨w', r', e1, e2, e3, e4, e5⟩ := spelled_space s4 s3 h1.1 h1.2 h2
      refine step w' r' e1 e4 ?_
      obtain ⟨tl, e⟩ := wsAlts_head w' r' e2 e3 e5
      show ∃ tl, (wsAlts (w' ++ r')).map _ = _
      rw [e]
      exact ⟨_, rfl⟩
    · exact step w r rfl h2 (spelled_head ht t0 (fun c hc => ha c (List.mem_append_left _ hc)) hb h1 h2 fun x hx => hw ⟨x, hx⟩)

/-- **C98, every spelling is read.**  A text that spells a valid datetime piece by piece (numbers with one or two digits, a fraction of one to six digits, an offset in any form, letters in any
case, any white space for white space) is read completely, if in the format every piece of variable width is followed by something that cannot be taken for a part of it: components that the
format shows come out as the text says, and the others are those of 1900-01-01 00:00:00. -/
theorem C98_every_spelling (its : List Item) (t : DateTime) (s : List Char) (ht : DateTimeOk t) (hf : Shape its) (hb : Apart its) (hn : ¬ (Item.year ∈ its ∧ Item.year2 ∈ its))
    (ho : Item.zone ∈ its → offsetOk t.tz = true) (ha : AsciiDigits s) (h : Spelled t its s) :
    strptime its s = if DateTimeOk (shown its t) then some (shown its t) else none := by
  unfold strptime
  rw [readItems_all ht its strpDefault s hf hb ha h, fold_shown t its hn]
  dsimp only
  have ho' : offsetOk (shown its t).tz = true := by
    show offsetOk (if Item.zone ∈ its then t.tz else none) = true
    by_cases hz : Item.zone ∈ its
    · rw [if_pos hz]; exact ho hz
    · rw [if_neg hz]; rfl
  rw [if_pos ho']
  rfl

/-- So with a format that shows every component that is not zero, exactly the texts that spell a valid datetime give it. -/
theorem C98_exactly_the_spellings (its : List Item) (t : DateTime) (s : List Char) (hf : Shape its) (hb : Apart its) (hn : Item.year2 ∉ its) (hc : Complete its t)
    (hu : Once its) (ha : AsciiDigits s) : strptime its s = some t ↔ DateTimeOk t ∧ (Item.zone ∈ its → offsetOk t.tz = true) ∧ Spelled t its s := by
  constructor
  · intro h
    obtain ⟨-, h2, -⟩ := strptime_some h
    refine ⟨?_, fun _ => h2, C98_spelled its hu s t h⟩
    unfold strptime at h
    split at h
    · split at h
      · unfold mkDateTime at h
        split at h
        · cases h; assumption
        · cases h
      · cases h
    · cases h
  · rintro ⟨h1, h2, h3⟩
    rw [C98_every_spelling its t s h1 hf hb (fun h => hn h.2) h2 ha h3, shown_complete hc, if_pos h1]

/-! ## The hypotheses are met -/

/-- Single digits, a fraction of three digits, an offset with colons, other white space. -/
example : strptime [.day, .lit '.', .month, .lit '.', .year, .ws [' '], .hour, .lit 'h', .minute, .lit ':', .second, .lit '.', .micro, .zone] "7.3.2024 \t 9H05:7.125-03:30".toList =
    some ⟨⟨2024, 3, 7⟩, 9, 5, 7, 125000, some (-12600)⟩ := by decide +kernel

example : Shape standardFormat ∧ Apart standardFormat ∧ Once standardFormat ∧ Item.year2 ∉ standardFormat ∧ Complete standardFormat ⟨⟨2024, 3, 7⟩, 9, 5, 7, 125000, some (-12600)⟩ := by
  simp [Shape, Apart, Break, Once, standardFormat, Complete]
  decide

/-- The condition on the format is needed: digits that run together may be divided otherwise than they were put together (11 January without padding is read as 1 November). -/
theorem C98_counterexample_run_together :
    Spelled ⟨⟨1900, 1, 11⟩, 0, 0, 0, 0, none⟩ [.month, .day] "111".toList ∧
    strptime [.month, .day] "111".toList = some ⟨⟨1900, 11, 1⟩, 0, 0, 0, 0, none⟩ := by
  refine ⟨⟨['1'], ['1', '1'], rfl, ⟨.inl rfl, by decide⟩, ['1', '1'], [], rfl, .inl ⟨.inr rfl, by decide⟩, rfl⟩, by decide +kernel⟩

end Verif.Types
