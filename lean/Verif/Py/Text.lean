import Verif.Py.Val

/-!
# Python text: digits, blanks, integer literals

Part of the modelled Python runtime: `str(int)`, `int(str)`, `int(str, 16)`, `str.strip`.
Used by `types/base.py:464-482` (`IntType`), `base.py:413-424` (`str(value)`), `base.py:575-585`
(`int(value, 16)`), `base.py:879-901` (`\d` groups).  The table of decimal digits is that of Unicode 14
(CPython 3.11); CPython's limit of 4300 digits is not modelled.
-/
namespace Verif.Py

/-! ## Digits -/

/-- The digit character of `d < 10`. -/
def digit (d : Nat) : Char := Char.ofNat (48 + d)

/-- Code points of the zeros of all Unicode decimal digit blocks. -/
def zeros : List Nat := [0x30, 0x660, 0x6f0, 0x7c0, 0x966, 0x9e6, 0xa66, 0xae6, 0xb66, 0xbe6, 0xc66, 0xce6, 0xd66,
  0xde6, 0xe50, 0xed0, 0xf20, 0x1040, 0x1090, 0x17e0, 0x1810, 0x1946, 0x19d0, 0x1a80, 0x1a90, 0x1b50, 0x1bb0, 0x1c40,
  0x1c50, 0xa620, 0xa8d0, 0xa900, 0xa9d0, 0xa9f0, 0xaa50, 0xabf0, 0xff10, 0x104a0, 0x10d30, 0x11066, 0x110f0, 0x11136,
  0x111d0, 0x112f0, 0x11450, 0x114d0, 0x11650, 0x116c0, 0x11730, 0x118e0, 0x11950, 0x11c50, 0x11d50, 0x11da0, 0x16a60,
  0x16ac0, 0x16b50, 0x1d7ce, 0x1d7d8, 0x1d7e2, 0x1d7ec, 0x1d7f6, 0x1e140, 0x1e2f0, 0x1e950, 0x1fbf0]

/-- First block containing the code point. -/
def digitIn : List Nat → Nat → Option Nat
  | [], _ => none
  | z :: zs, c => if z ≤ c ∧ c < z + 10 then some (c - z) else digitIn zs c

/-- `unicodedata.decimal(c, None)`: the value of a decimal digit. -/
def digitVal (c : Char) : Option Nat := digitIn zeros c.toNat

theorem digitIn_lt : ∀ (zs : List Nat) (c d : Nat), digitIn zs c = some d → d < 10
  | [], _, _, h => by cases h
  | z :: zs, c, d, h => by
    rw [digitIn] at h
    split at h
    · cases h; omega
    · exact digitIn_lt zs c d h

theorem digitVal_lt {c : Char} {d : Nat} (h : digitVal c = some d) : d < 10 := digitIn_lt _ _ _ h

theorem digit_toNat : ∀ d, d < 10 → (digit d).toNat = 48 + d := by decide

@[simp] theorem digitVal_digit (d : Nat) (h : d < 10) : digitVal (digit d) = some d := by
  rw [digitVal, digit_toNat d h, zeros, digitIn, if_pos ⟨by omega, by omega⟩]
  congr 1
  omega

theorem digit_inj {a b : Nat} (ha : a < 10) (hb : b < 10) (h : digit a = digit b) : a = b := by
  have := congrArg digitVal h
  rw [digitVal_digit a ha, digitVal_digit b hb] at this
  exact Option.some.inj this

/-- An ASCII digit character. -/
def isAsciiDigit (c : Char) : Bool := decide (48 ≤ c.toNat ∧ c.toNat ≤ 57)

theorem isAsciiDigit_digit : ∀ d, d < 10 → isAsciiDigit (digit d) = true := by decide

theorem digitVal_ascii {c : Char} (h : isAsciiDigit c = true) : digitVal c = some (c.toNat - 48) := by
  have h := of_decide_eq_true h
  rw [digitVal, zeros, digitIn, if_pos ⟨by omega, by omega⟩]

theorem eq_digit_of_ascii {c : Char} (h : isAsciiDigit c = true) : c = digit (c.toNat - 48) := by
  have h := of_decide_eq_true h
  rw [digit, show 48 + (c.toNat - 48) = c.toNat by omega, Char.ofNat_toNat]

/-! ## `str(int)` -/

/-- Decimal digits of `n`, least significant last; `fuel > n` suffices. -/
def natDigitsAux : Nat → Nat → List Char
  | 0, _ => []
  | fuel + 1, n => if n < 10 then [digit n] else natDigitsAux fuel (n / 10) ++ [digit (n % 10)]

/-- `str(n)` for a natural number. -/
def natText (n : Nat) : List Char := natDigitsAux (n + 1) n

/-- `str(i)` for an int. -/
def intText : Int → List Char
  | .ofNat n => natText n
  | .negSucc n => '-' :: natText (n + 1)

theorem natDigitsAux_fuel : ∀ f g n, n < f → n < g → natDigitsAux f n = natDigitsAux g n := by
  intro f
  induction f with
  | zero => intro g n h; omega
  | succ f ih =>
    intro g n h hg
    cases g with
    | zero => omega
    | succ g =>
      rw [natDigitsAux, natDigitsAux]
      split
      · rfl
      · rw [ih g (n / 10) (by omega) (by omega)]

theorem natText_small {n : Nat} (h : n < 10) : natText n = [digit n] := by
  rw [natText, natDigitsAux, if_pos h]

theorem natText_step {n : Nat} (h : ¬ n < 10) : natText n = natText (n / 10) ++ [digit (n % 10)] := by
  rw [natText, natDigitsAux, if_neg h, natText, natDigitsAux_fuel n (n / 10 + 1) (n / 10) (by omega) (by omega)]

/-- Induction along decimal digits. -/
theorem decInduction {P : Nat → Prop} (h1 : ∀ n, n < 10 → P n) (h2 : ∀ n, ¬ n < 10 → P (n / 10) → P n) : ∀ n, P n := by
  intro n
  induction n using Nat.strongRecOn with
  | ind n ih =>
    by_cases h : n < 10
    · exact h1 n h
    · exact h2 n h (ih (n / 10) (by omega))

theorem natText_ne_nil (n : Nat) : natText n ≠ [] := by
  by_cases h : n < 10
  · simp [natText_small h]
  · simp [natText_step h]

theorem natText_ascii (n : Nat) : ∀ c ∈ natText n, isAsciiDigit c = true := by
  induction n using decInduction with
  | h1 n h => intro c hc; rw [natText_small h] at hc; simp at hc; subst hc; exact isAsciiDigit_digit n h
  | h2 n h ih =>
    intro c hc
    rw [natText_step h] at hc
    rcases List.mem_append.1 hc with hc | hc
    · exact ih c hc
    · simp at hc; subst hc; exact isAsciiDigit_digit _ (by omega)

/-! ## Values of digit sequences -/

/-- The number written by a sequence of digits in base `b`, starting from accumulator `a`. -/
def ofDigits (b : Nat) (a : Nat) (ds : List Nat) : Nat := ds.foldl (fun a d => b * a + d) a

@[simp] theorem ofDigits_nil (b a : Nat) : ofDigits b a [] = a := rfl
@[simp] theorem ofDigits_cons (b a d : Nat) (ds : List Nat) : ofDigits b a (d :: ds) = ofDigits b (b * a + d) ds := rfl
theorem ofDigits_append (b a : Nat) (ds es : List Nat) : ofDigits b a (ds ++ es) = ofDigits b (ofDigits b a ds) es := by
  simp [ofDigits]

/-- All characters are digits; their values. -/
def digitsOf : List Char → Option (List Nat)
  | [] => some []
  | c :: cs =>
    match digitVal c, digitsOf cs with
    | some d, some ds => some (d :: ds)
    | _, _ => none

theorem digitsOf_append (xs ys : List Char) (ds es : List Nat) (h1 : digitsOf xs = some ds) (h2 : digitsOf ys = some es) :
    digitsOf (xs ++ ys) = some (ds ++ es) := by
  induction xs generalizing ds with
  | nil => cases h1; exact h2
  | cons c cs ih =>
    rw [digitsOf] at h1
    cases hc : digitVal c with
    | none => simp [hc] at h1
    | some d =>
      cases hcs : digitsOf cs with
      | none => simp [hc, hcs] at h1
      | some e =>
        simp only [hc, hcs, Option.some.injEq] at h1
        subst h1
        simp [digitsOf, hc, ih e hcs]

/-- `str(n)` is the decimal representation of `n`. -/
theorem natText_digits (n : Nat) : ∃ ds, digitsOf (natText n) = some ds ∧ ofDigits 10 0 ds = n := by
  induction n using decInduction with
  | h1 n h => exact ⟨[n], by simp [natText_small h, digitsOf, h], by simp⟩
  | h2 n h ih =>
    obtain ⟨ds, h3, h4⟩ := ih
    refine ⟨ds ++ [n % 10], ?_, ?_⟩
    · rw [natText_step h]
      refine digitsOf_append _ _ _ _ h3 ?_
      have : n % 10 < 10 := by omega
      simp [digitsOf, this]
    · rw [ofDigits_append, h4]
      simp
      omega

/-! ## `int(str)` -/

/-- `Py_ISSPACE` plus the non-ASCII white space characters. -/
def isSpace (c : Char) : Bool :=
  let n := c.toNat
  decide ((9 ≤ n ∧ n ≤ 13) ∨ n = 32 ∨ n = 0x85 ∨ n = 0xa0 ∨ n = 0x1680 ∨ (0x2000 ≤ n ∧ n ≤ 0x200a) ∨ n = 0x2028 ∨
    n = 0x2029 ∨ n = 0x202f ∨ n = 0x205f ∨ n = 0x3000)

/-- Drop blanks at both ends. -/
def strip (cs : List Char) : List Char := (cs.dropWhile isSpace).reverse.dropWhile isSpace |>.reverse

/-- Value of a digit in base 10. -/
def dec10 (c : Char) : Option Nat := digitVal c

/-- Value of a digit in base 16. -/
def hex16 (c : Char) : Option Nat :=
  if 97 ≤ c.toNat ∧ c.toNat ≤ 102 then some (c.toNat - 87)
  else if 65 ≤ c.toNat ∧ c.toNat ≤ 70 then some (c.toNat - 55)
  else digitVal c

/-- Digits with single underscores between them. -/
def digitsU (dv : Char → Option Nat) (b : Nat) : Nat → Bool → List Char → Option Nat
  | a, p, [] => if p then some a else none
  | a, p, c :: cs =>
    if c = '_' then (if p then digitsU dv b a false cs else none)
    else
      match dv c with
      | some d => digitsU dv b (b * a + d) true cs
      | none => none

/-- Split an optional sign off. -/
def sign : List Char → Bool × List Char
  | '+' :: r => (false, r)
  | '-' :: r => (true, r)
  | r => (false, r)

/-- The optional `0x` prefix of `int(s, 16)`, with the underscore allowed after it. -/
def hexPrefix : List Char → List Char
  | '0' :: 'x' :: '_' :: r => r
  | '0' :: 'X' :: '_' :: r => r
  | '0' :: 'x' :: r => r
  | '0' :: 'X' :: r => r
  | r => r

/-- Apply a sign. -/
def applySign (neg : Bool) (n : Nat) : Int := if neg then -(n : Int) else n

/-- `int(s)`; `none` is `ValueError`. -/
def parseInt (cs : List Char) : Option Int :=
  (digitsU dec10 10 0 false (sign (strip cs)).2).map (applySign (sign (strip cs)).1)

/-- `int(s, 16)`; `none` is `ValueError`. -/
def parseHex (cs : List Char) : Option Int :=
  (digitsU hex16 16 0 false (hexPrefix (sign (strip cs)).2)).map (applySign (sign (strip cs)).1)

/-! ## Integer literals, declaratively -/

/-- `d (_? d)*` and the digit values. -/
inductive Body (dv : Char → Option Nat) : List Char → List Nat → Prop
  | one {c d} : dv c = some d → Body dv [c] [d]
  | cons {c d cs ds} : dv c = some d → Body dv cs ds → Body dv (c :: cs) (d :: ds)
  | under {c d cs ds} : dv c = some d → Body dv cs ds → Body dv (c :: '_' :: cs) (d :: ds)

/-- `cs` is a decimal integer literal denoting `n`: blanks, an optional sign, decimal digits optionally separated by
single underscores, blanks. -/
def IntLiteral (cs : List Char) (n : Int) : Prop :=
  ∃ pre sgn body post ds, cs = pre ++ sgn ++ body ++ post ∧ (∀ c ∈ pre, isSpace c = true) ∧ (∀ c ∈ post, isSpace c = true) ∧
    (sgn = [] ∨ sgn = ['+'] ∨ sgn = ['-']) ∧ Body digitVal body ds ∧
    n = applySign (decide (sgn = ['-'])) (ofDigits 10 0 ds)

theorem dropWhile_all {p : Char → Bool} {xs ys : List Char} (h : ∀ c ∈ xs, p c = true) (hy : ∀ c cs, ys = c :: cs → p c = false) :
    (xs ++ ys).dropWhile p = ys := by
  induction xs with
  | nil =>
    cases ys with
    | nil => rfl
    | cons c cs => simp [List.dropWhile, hy c cs rfl]
  | cons c cs ih =>
    rw [List.cons_append, List.dropWhile_cons_of_pos (h c (by simp))]
    exact ih (fun c hc => h c (by simp [hc]))

/-- `strip` removes exactly the blanks around a text whose ends are not blank. -/
theorem strip_of {pre mid post : List Char} (h1 : ∀ c ∈ pre, isSpace c = true) (h2 : ∀ c ∈ post, isSpace c = true)
    (hf : ∀ c cs, mid = c :: cs → isSpace c = false) (hl : ∀ c cs, mid = cs ++ [c] → isSpace c = false) (hne : mid ≠ []) :
    strip (pre ++ mid ++ post) = mid := by
  rw [strip, List.append_assoc, dropWhile_all h1]
  · rw [List.reverse_append, dropWhile_all]
    · simp
    · intro c hc; exact h2 c (by simpa using hc)
    · intro c cs he
      refine hl c cs.reverse ?_
      have := congrArg List.reverse he
      simpa using this
  · intro c cs he
    cases mid with
    | nil => exact absurd rfl hne
    | cons m ms => simp at he; exact hf c ms (by rw [he.1])

theorem takeWhile_all {p : Char → Bool} (xs : List Char) : ∀ c ∈ xs.takeWhile p, p c = true := by
  induction xs with
  | nil => intro c hc; cases hc
  | cons x xs ih =>
    intro c hc
    rw [List.takeWhile_cons] at hc
    split at hc
    · rcases List.mem_cons.1 hc with rfl | hc
      · assumption
      · exact ih c hc
    · cases hc

/-- Every text is blanks, its stripped content, blanks. -/
theorem strip_spec (cs : List Char) : ∃ pre post, cs = pre ++ strip cs ++ post ∧ (∀ c ∈ pre, isSpace c = true) ∧
    (∀ c ∈ post, isSpace c = true) := by
  refine ⟨cs.takeWhile isSpace, ((cs.dropWhile isSpace).reverse.takeWhile isSpace).reverse, ?_, takeWhile_all cs, ?_⟩
  · rw [strip, List.append_assoc, ← List.reverse_append, List.takeWhile_append_dropWhile, List.reverse_reverse,
      List.takeWhile_append_dropWhile]
  · intro c hc
    exact takeWhile_all _ c (by simpa using hc)

theorem digitsU_true_of_body (dv : Char → Option Nat) (hu : dv '_' = none) (b : Nat) :
    ∀ {cs ds}, Body dv cs ds → ∀ a p, digitsU dv b a p cs = some (ofDigits b a ds) := by
  have hne : ∀ {c d}, dv c = some d → c ≠ '_' := by
    intro c d h he; subst he; rw [hu] at h; cases h
  intro cs ds hb
  induction hb with
  | one h => intro a p; simp [digitsU, hne h, h]
  | cons h _ ih => intro a p; rw [digitsU, if_neg (hne h)]; simp [h, ih]
  | under h _ ih => intro a p; rw [digitsU, if_neg (hne h)]; simp [h, digitsU, ih]

/-- After a digit: either nothing follows, or a continuation of the body. -/
theorem body_of_digitsU (dv : Char → Option Nat) (b : Nat) : ∀ (cs : List Char) a n,
    (digitsU dv b a true cs = some n → ∀ c0 d0, dv c0 = some d0 →
      ∃ ds, Body dv (c0 :: cs) (d0 :: ds) ∧ n = ofDigits b a ds) ∧
    (digitsU dv b a false cs = some n → ∃ ds, Body dv cs ds ∧ n = ofDigits b a ds) := by
  intro cs
  induction cs with
  | nil =>
    intro a n
    refine ⟨fun h c0 d0 hc => ⟨[], .one hc, ?_⟩, fun h => by simp [digitsU] at h⟩
    simp [digitsU] at h
    simp [h]
  | cons c cs ih =>
    intro a n
    constructor
    · intro h c0 d0 hc0
      rw [digitsU] at h
      split at h
      · rename_i hc
        simp only [if_true] at h
        obtain ⟨ds, h1, h2⟩ := (ih a n).2 h
        exact ⟨ds, by rw [hc]; exact .under hc0 h1, h2⟩
      · cases hd : dv c with
        | none => simp [hd] at h
        | some d =>
          simp only [hd] at h
          obtain ⟨ds, h1, h2⟩ := (ih _ n).1 h c d hd
          exact ⟨d :: ds, .cons hc0 h1, by simpa using h2⟩
    · intro h
      rw [digitsU] at h
      split at h
      · simp at h
      · cases hd : dv c with
        | none => simp [hd] at h
        | some d =>
          simp only [hd] at h
          obtain ⟨ds, h1, h2⟩ := (ih _ n).1 h c d hd
          exact ⟨d :: ds, h1, by simpa using h2⟩

theorem digitVal_underscore : digitVal '_' = none := by decide
theorem digitVal_plus : digitVal '+' = none := by decide
theorem digitVal_minus : digitVal '-' = none := by decide

theorem digitIn_none_of {c : Nat} : ∀ {zs : List Nat}, (∀ z ∈ zs, ¬ (z ≤ c ∧ c < z + 10)) → digitIn zs c = none
  | [], _ => rfl
  | z :: zs, h => by
    rw [digitIn, if_neg (h z (by simp))]
    exact digitIn_none_of fun z hz => h z (by simp [hz])

/-- The blocks of white space. -/
theorem isSpace_digit {c : Char} (h : isSpace c = true) : digitVal c = none := by
  have h := of_decide_eq_true h
  refine digitIn_none_of ?_
  intro z hz
  simp only [zeros, List.mem_cons, List.not_mem_nil, or_false] at hz
  omega

theorem not_space_of_digit {c : Char} {d : Nat} (h : digitVal c = some d) : isSpace c = false := by
  cases hs : isSpace c with
  | false => rfl
  | true => rw [isSpace_digit hs] at h; cases h

theorem Body.ne_nil {dv cs ds} (h : Body dv cs ds) : cs ≠ [] := by cases h <;> simp

theorem Body.head {dv cs ds} (h : Body dv cs ds) : ∀ c r, cs = c :: r → ∃ d, dv c = some d := by
  cases h <;> (intro c r he; cases he; exact ⟨_, ‹_›⟩)

theorem Body.last {dv cs ds} (h : Body dv cs ds) : ∀ c r, cs = r ++ [c] → ∃ d, dv c = some d := by
  induction h with
  | one h =>
    intro c r he
    cases r with
    | nil => cases he; exact ⟨_, h⟩
    | cons x xs => simp at he
  | @cons c' d' cs' ds' h hb ih =>
    intro c r he
    cases r with
    | nil => simp at he; exact absurd he.2 hb.ne_nil
    | cons x xs => simp at he; exact ih c xs he.2
  | @under c' d' cs' ds' h hb ih =>
    intro c r he
    cases r with
    | nil => simp at he
    | cons x xs =>
      cases xs with
      | nil => simp at he; exact absurd he.2.2 hb.ne_nil
      | cons y ys => simp at he; exact ih c ys he.2.2

theorem sign_body {sgn body : List Char} {ds} (hs : sgn = [] ∨ sgn = ['+'] ∨ sgn = ['-']) (hb : Body digitVal body ds) :
    sign (sgn ++ body) = (decide (sgn = ['-']), body) := by
  rcases hs with rfl | rfl | rfl
  · cases body with
    | nil => exact absurd rfl hb.ne_nil
    | cons c r =>
      obtain ⟨d, hd⟩ := hb.head c r rfl
      have h1 : c ≠ '+' := by rintro rfl; rw [digitVal_plus] at hd; cases hd
      have h2 : c ≠ '-' := by rintro rfl; rw [digitVal_minus] at hd; cases hd
      simp only [List.nil_append]
      rw [sign]
      · simp
      · intro r' he; simp at he; exact h1 he.1
      · intro r' he; simp at he; exact h2 he.1
  · rfl
  · rfl

theorem sign_spec (cs : List Char) : ∃ sgn, cs = sgn ++ (sign cs).2 ∧ (sgn = [] ∨ sgn = ['+'] ∨ sgn = ['-']) ∧
    (sign cs).1 = decide (sgn = ['-']) := by
  unfold sign
  split
  · exact ⟨['+'], rfl, by simp, by simp⟩
  · exact ⟨['-'], rfl, by simp, by simp⟩
  · exact ⟨[], rfl, by simp, by simp⟩

theorem isSpace_plus : isSpace '+' = false := by decide
theorem isSpace_minus : isSpace '-' = false := by decide

/-- `int(s)` accepts exactly the decimal integer literals and returns their value. -/
theorem parseInt_iff (cs : List Char) (n : Int) : parseInt cs = some n ↔ IntLiteral cs n := by
  constructor
  · intro h
    obtain ⟨pre, post, h1, h2, h3⟩ := strip_spec cs
    obtain ⟨sgn, h4, h5, h6⟩ := sign_spec (strip cs)
    rw [parseInt] at h
    obtain ⟨m, h7, h8⟩ := Option.map_eq_some_iff.1 h
    obtain ⟨ds, h9, h10⟩ := (body_of_digitsU dec10 10 _ 0 m).2 h7
    refine ⟨pre, sgn, (sign (strip cs)).2, post, ds, ?_, h2, h3, h5, h9, ?_⟩
    · rw [List.append_assoc pre sgn, ← h4]; exact h1
    · rw [← h8, h6, h10]
  · rintro ⟨pre, sgn, body, post, ds, rfl, h2, h3, h4, h5, rfl⟩
    have hstrip : strip (pre ++ sgn ++ body ++ post) = sgn ++ body := by
      rw [List.append_assoc pre sgn]
      refine strip_of h2 h3 ?_ ?_ ?_
      · intro c r he
        rcases h4 with rfl | rfl | rfl
        · obtain ⟨d, hd⟩ := h5.head c r he
          exact not_space_of_digit hd
        · cases he; exact isSpace_plus
        · cases he; exact isSpace_minus
      · intro c r he
        obtain ⟨l, x, hlx⟩ : ∃ l x, body = l ++ [x] := by
          rcases List.eq_nil_or_concat body with hb | ⟨l, x, hb⟩
          · exact absurd hb h5.ne_nil
          · exact ⟨l, x, by simpa using hb⟩
        rw [hlx, ← List.append_assoc] at he
        have := List.append_inj' he rfl
        simp at this
        obtain ⟨d, hd⟩ := h5.last x l hlx
        rw [← this.2]
        exact not_space_of_digit hd
      · have := h5.ne_nil
        cases body <;> simp_all
    rw [parseInt, hstrip, sign_body h4 h5]
    simp only
    rw [digitsU_true_of_body dec10 digitVal_underscore 10 h5]
    rfl

theorem body_of_digitsOf : ∀ {cs ds}, digitsOf cs = some ds → cs ≠ [] → Body digitVal cs ds := by
  intro cs
  induction cs with
  | nil => intro ds _ h; exact absurd rfl h
  | cons c cs ih =>
    intro ds h _
    rw [digitsOf] at h
    cases hc : digitVal c with
    | none => simp [hc] at h
    | some d =>
      cases hcs : digitsOf cs with
      | none => simp [hc, hcs] at h
      | some e =>
        simp only [hc, hcs, Option.some.injEq] at h
        subst h
        cases cs with
        | nil => cases hcs; exact .one hc
        | cons x xs => exact .cons hc (ih hcs (by simp))

theorem natText_body (n : Nat) : ∃ ds, Body digitVal (natText n) ds ∧ ofDigits 10 0 ds = n := by
  obtain ⟨ds, h1, h2⟩ := natText_digits n
  exact ⟨ds, body_of_digitsOf h1 (natText_ne_nil n), h2⟩

/-- `str(i)` is an integer literal denoting `i`. -/
theorem intText_literal (i : Int) : IntLiteral (intText i) i := by
  cases i with
  | ofNat n =>
    obtain ⟨ds, h1, h2⟩ := natText_body n
    exact ⟨[], [], natText n, [], ds, by simp [intText], by simp, by simp, by simp, h1, by simp [applySign, h2]⟩
  | negSucc n =>
    obtain ⟨ds, h1, h2⟩ := natText_body (n + 1)
    refine ⟨[], ['-'], natText (n + 1), [], ds, by simp [intText], by simp, by simp, by simp, h1, ?_⟩
    simp only [applySign, h2, decide_true, if_true]
    omega

/-- `int(str(i)) == i`. -/
theorem parseInt_intText (i : Int) : parseInt (intText i) = some i := (parseInt_iff _ _).2 (intText_literal i)

end Verif.Py
