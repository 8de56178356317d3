import Verif.Types.Text

/-!
# Texts: C47 (booleans), C48 (strings), C49 (UUIDs), C57 (hashes)
-/
namespace Verif.Types
open Verif.Py

/-! ## C47 -/

/-- The documented spellings of `True`. -/
def SpellsTrue (v : Val) : Prop := v = .bool true ∨ v = .int 1 ∨ v = .str "True" ∨ v = .str "true" ∨ v = .str "1"
/-- The documented spellings of `False`. -/
def SpellsFalse (v : Val) : Prop := v = .bool false ∨ v = .int 0 ∨ v = .str "False" ∨ v = .str "false" ∨ v = .str "0"

/-- **C47.** `BooleanType` accepts exactly the documented values, and everything else raises `ConversionError`. -/
theorem C47_boolean (app v : Val) :
    (SpellsTrue v → booleanType.toNative app v = .ok (.bool true)) ∧
    (SpellsFalse v → booleanType.toNative app v = .ok (.bool false)) ∧
    (¬ SpellsTrue v → ¬ SpellsFalse v → ∃ m, booleanType.toNative app v = .error (.field .conv m)) := by
  refine ⟨?_, ?_, ?_⟩
  · rintro (rfl | rfl | rfl | rfl | rfl) <;> rfl
  · rintro (rfl | rfl | rfl | rfl | rfl) <;> rfl
  · intro h1 h2
    simp only [SpellsTrue, SpellsFalse, not_or] at h1 h2
    simp only [booleanType]
    cases v with
    | str s =>
      simp only [booleanNative, trueValues, falseValues, List.mem_cons, List.not_mem_nil, or_false]
      rw [if_neg (by simp_all), if_neg (by simp_all)]
      exact ⟨_, rfl⟩
    | int i =>
      simp only [booleanNative]
      rw [if_neg (by simp_all), if_neg (by simp_all)]
      exact ⟨_, rfl⟩
    | bool b => cases b <;> simp_all
    | _ => exact ⟨_, rfl⟩

/-- **C47 (idempotence).** Converting a converted value changes nothing. -/
theorem C47_boolean_idempotent (app v w : Val) (h : booleanType.toNative app v = .ok w) : booleanType.toNative app w = .ok w := by
  have : ∃ b, w = .bool b := by
    have hh := C47_boolean app v
    by_cases h1 : SpellsTrue v
    · rw [hh.1 h1] at h; cases h; exact ⟨_, rfl⟩
    · by_cases h2 : SpellsFalse v
      · rw [hh.2.1 h2] at h; cases h; exact ⟨_, rfl⟩
      · obtain ⟨m, hm⟩ := hh.2.2 h1 h2
        rw [hm] at h; cases h
  obtain ⟨b, rfl⟩ := this
  rfl

/-! ## C48 -/

theorem ofNat_toNat {n : Nat} (h : n < 0xD800 ∨ (0xDFFF < n ∧ n < 0x110000)) : (Char.ofNat n).toNat = n := by
  have hv : n.isValidChar := h
  unfold Char.ofNat
  rw [dif_pos hv]
  rfl

theorem toNat_valid (c : Char) : c.toNat < 0xD800 ∨ (0xDFFF < c.toNat ∧ c.toNat < 0x110000) := c.valid

theorem utf8Next_char (c : Char) (r : List Nat) : utf8Next (utf8Char c ++ r) = some (c.toNat, r) := by
  have hv := toNat_valid c
  unfold utf8Char
  generalize c.toNat = n at *
  simp only
  split
  · rename_i h
    simp [utf8Next, h]
  · split
    · rename_i h1 h2
      have ha : ¬ (0xC0 + n / 64 < 0x80) := by omega
      have hb : 0xC2 ≤ 0xC0 + n / 64 ∧ 0xC0 + n / 64 < 0xE0 := by omega
      have hc : cont (0x80 + n % 64) = true := by simp [cont]; omega
      simp only [List.cons_append, List.nil_append, utf8Next, if_neg ha, if_pos hb, hc, if_true]
      have he : (0xC0 + n / 64 - 0xC0) * 64 + (0x80 + n % 64 - 0x80) = n := by omega
      rw [he]
    · split
      · rename_i h1 h2 h3
        have ha : ¬ (0xE0 + n / 4096 < 0x80) := by omega
        have hb : ¬ (0xC2 ≤ 0xE0 + n / 4096 ∧ 0xE0 + n / 4096 < 0xE0) := by omega
        have hb' : 0xE0 ≤ 0xE0 + n / 4096 ∧ 0xE0 + n / 4096 < 0xF0 := by omega
        have hc : cont (0x80 + n % 64) = true := by simp [cont]; omega
        have hd : cont (0x80 + n / 64 % 64) = true := by simp [cont]; omega
        have he : (0xE0 + n / 4096 - 0xE0) * 64 + (0x80 + n / 64 % 64 - 0x80) = n / 64 := by omega
        have hf : (n / 64) * 64 + (0x80 + n % 64 - 0x80) = n := by omega
        simp only [List.cons_append, List.nil_append, utf8Next, if_neg ha, if_neg hb, if_pos hb', hc, hd, he, hf]
        rw [if_pos]
        simp
        omega
      · rename_i h1 h2 h3
        have ha : ¬ (0xF0 + n / 262144 < 0x80) := by omega
        have hb : ¬ (0xC2 ≤ 0xF0 + n / 262144 ∧ 0xF0 + n / 262144 < 0xE0) := by omega
        have hb' : ¬ (0xE0 ≤ 0xF0 + n / 262144 ∧ 0xF0 + n / 262144 < 0xF0) := by omega
        have hb'' : 0xF0 ≤ 0xF0 + n / 262144 ∧ 0xF0 + n / 262144 < 0xF5 := by omega
        have hc : cont (0x80 + n % 64) = true := by simp [cont]; omega
        have hd : cont (0x80 + n / 64 % 64) = true := by simp [cont]; omega
        have hd' : cont (0x80 + n / 4096 % 64) = true := by simp [cont]; omega
        have he : (0xF0 + n / 262144 - 0xF0) * 64 + (0x80 + n / 4096 % 64 - 0x80) = n / 4096 := by omega
        have hf : (n / 4096) * 64 + (0x80 + n / 64 % 64 - 0x80) = n / 64 := by omega
        have hg : (n / 64) * 64 + (0x80 + n % 64 - 0x80) = n := by omega
        simp only [List.cons_append, List.nil_append, utf8Next, if_neg ha, if_neg hb, if_neg hb', if_pos hb'', hc, hd, hd', he, hf, hg]
        rw [if_pos]
        simp
        omega

theorem utf8Next_sound {bs r : List Nat} {n : Nat} (h : utf8Next bs = some (n, r)) :
    utf8Char (Char.ofNat n) ++ r = bs ∧ (Char.ofNat n).toNat = n := by
  unfold utf8Next at h
  split at h
  · cases h
  · split at h
    · rename_i a r' h1
      cases h
      have hn : (Char.ofNat n).toNat = n := ofNat_toNat (by omega)
      refine ⟨?_, hn⟩
      simp only [utf8Char, hn, if_pos h1]
      rfl
    · split at h
      · rename_i a r' h1 h2
        split at h
        · rename_i b r''
          split at h
          · rename_i hb
            simp only [Option.some.injEq, Prod.mk.injEq] at h
            obtain ⟨hn0, rfl⟩ := h
            have hb := of_decide_eq_true hb
            have hn : (Char.ofNat n).toNat = n := ofNat_toNat (by omega)
            refine ⟨?_, hn⟩
            simp only [utf8Char, hn]
            rw [if_neg (by omega), if_pos (by omega)]
            have e1 : 0xC0 + n / 64 = a := by omega
            have e2 : 0x80 + n % 64 = b := by omega
            rw [e1, e2]; rfl
          · cases h
        · cases h
      · split at h
        · rename_i a r' h1 h2 h3
          split at h
          · rename_i b c r''
            simp only at h
            split at h
            · rename_i hb
              simp only [Bool.and_eq_true, decide_eq_true_eq] at hb
              simp only [Option.some.injEq, Prod.mk.injEq] at h
              obtain ⟨hn0, rfl⟩ := h
              obtain ⟨⟨hb1, hb2⟩, hb3⟩ := hb
              have hb1 := of_decide_eq_true hb1
              have hb2 := of_decide_eq_true hb2
              rw [hn0] at hb3
              have hn : (Char.ofNat n).toNat = n := ofNat_toNat (by omega)
              refine ⟨?_, hn⟩
              simp only [utf8Char, hn]
              rw [if_neg (by omega), if_neg (by omega), if_pos (by omega)]
              have e1 : 0xE0 + n / 4096 = a := by omega
              have e2 : 0x80 + n / 64 % 64 = b := by omega
              have e3 : 0x80 + n % 64 = c := by omega
              rw [e1, e2, e3]; rfl
            · cases h
          · cases h
        · split at h
          · rename_i a r' h1 h2 h3 h4
            split at h
            · rename_i b c d r''
              simp only at h
              split at h
              · rename_i hb
                simp only [Bool.and_eq_true, decide_eq_true_eq] at hb
                simp only [Option.some.injEq, Prod.mk.injEq] at h
                obtain ⟨hn0, rfl⟩ := h
                obtain ⟨⟨⟨hb1, hb2⟩, hb4⟩, hb3⟩ := hb
                have hb1 := of_decide_eq_true hb1
                have hb2 := of_decide_eq_true hb2
                have hb4 := of_decide_eq_true hb4
                rw [hn0] at hb3
                have hn : (Char.ofNat n).toNat = n := ofNat_toNat (by omega)
                refine ⟨?_, hn⟩
                simp only [utf8Char, hn]
                rw [if_neg (by omega), if_neg (by omega), if_neg (by omega)]
                have e1 : 0xF0 + n / 262144 = a := by omega
                have e2 : 0x80 + n / 4096 % 64 = b := by omega
                have e3 : 0x80 + n / 64 % 64 = c := by omega
                have e4 : 0x80 + n % 64 = d := by omega
                rw [e1, e2, e3, e4]; rfl
              · cases h
            · cases h
          · cases h

theorem utf8Char_ne_nil (c : Char) : utf8Char c ≠ [] := by
  unfold utf8Char
  simp only
  split
  · simp
  · split
    · simp
    · split <;> simp

/-- Decoding accepts exactly the UTF-8 encodings and inverts the encoding. -/
theorem utf8Decode_iff (f : Nat) (bs : List Nat) (cs : List Char) (hf : bs.length ≤ f) :
    utf8Decode f bs = some cs ↔ bs = cs.flatMap utf8Char := by
  induction f generalizing bs cs with
  | zero =>
    have : bs = [] := List.length_eq_zero_iff.1 (by omega)
    subst this
    rw [utf8Decode]
    constructor
    · intro h; cases h; rfl
    · intro h
      cases cs with
      | nil => rfl
      | cons c cs =>
        simp only [List.flatMap_cons] at h
        exact absurd (List.append_eq_nil_iff.1 h.symm).1 (utf8Char_ne_nil c)
  | succ f ih =>
    cases bs with
    | nil =>
      rw [utf8Decode]
      constructor
      · intro h; cases h; rfl
      · intro h
        cases cs with
        | nil => rfl
        | cons c cs =>
          simp only [List.flatMap_cons] at h
          exact absurd (List.append_eq_nil_iff.1 h.symm).1 (utf8Char_ne_nil c)
    | cons b bs =>
      rw [utf8Decode]
      case x_2 => simp
      constructor
      · intro h
        cases hn : utf8Next (b :: bs) with
        | none => simp [hn] at h
        | some p =>
          obtain ⟨n, r⟩ := p
          simp only [hn] at h
          obtain ⟨cs', h1, rfl⟩ := Option.map_eq_some_iff.1 h
          obtain ⟨h2, h3⟩ := utf8Next_sound hn
          have hlen : r.length ≤ f := by
            have := congrArg List.length h2
            simp only [List.length_append, List.length_cons] at this
            have hp : 0 < (utf8Char (Char.ofNat n)).length := List.length_pos_iff.2 (utf8Char_ne_nil _)
            simp at hf
            omega
          rw [← h2, List.flatMap_cons, (ih r cs' hlen).1 h1]
      · intro h
        cases cs with
        | nil => simp at h
        | cons c cs =>
          simp only [List.flatMap_cons] at h
          rw [h, utf8Next_char]
          have hlen : (cs.flatMap utf8Char).length ≤ f := by
            have := congrArg List.length h
            simp only [List.length_append, List.length_cons] at this
            have hp : 0 < (utf8Char c).length := List.length_pos_iff.2 (utf8Char_ne_nil _)
            simp at hf
            omega
          simp only [(ih _ cs hlen).2 rfl, Option.map_some, Char.ofNat_toNat]

/-- The text a value is stored as by `StringType`. -/
inductive DenotesText : Val → String → Prop
  | text (s : String) : DenotesText (.str s) s
  /-- the decimal text of an int -/
  | int (i : Int) : DenotesText (.int i) (String.ofList (intText i))
  /-- the text whose UTF-8 encoding was given -/
  | utf8 (s : String) : DenotesText (.bytes (s.toList.flatMap utf8Char)) s

/-- **C48 (conversion).** `StringType` accepts exactly texts, ints and valid UTF-8, and stores the denoted text; everything
else (bools included) raises `ConversionError`. -/
theorem C48_string_conversion (re : Option (String → Bool)) (max min : Option Nat) (app v : Val) :
    (∀ w, (stringType re max min).toNative app v = .ok w ↔ ∃ s, w = .str s ∧ DenotesText v s) ∧
    (∀ e, (stringType re max min).toNative app v = .error e → ∃ m, e = .field .conv m) := by
  simp only [stringType]
  cases v with
  | str s =>
    refine ⟨fun w => ⟨fun h => by cases h; exact ⟨s, rfl, .text s⟩, ?_⟩, fun e h => by cases h⟩
    rintro ⟨s, rfl, h⟩; cases h; rfl
  | int i =>
    refine ⟨fun w => ⟨fun h => by cases h; exact ⟨_, rfl, .int i⟩, ?_⟩, fun e h => by cases h⟩
    rintro ⟨s, rfl, h⟩; cases h; rfl
  | bytes bs =>
    simp only [stringNative]
    cases hd : utf8Decode bs.length bs with
    | none =>
      refine ⟨fun w => ⟨fun h => (by cases h), ?_⟩, fun e h => (by cases h; exact ⟨_, rfl⟩)⟩
      rintro ⟨s, rfl, h⟩
      cases h
      rw [(utf8Decode_iff _ _ s.toList (Nat.le_refl _)).2 rfl] at hd
      cases hd
    | some cs =>
      have hb := (utf8Decode_iff _ _ _ (Nat.le_refl _)).1 hd
      refine ⟨fun w => ⟨fun h => ?_, ?_⟩, fun e h => by cases h⟩
      · cases h
        refine ⟨_, rfl, ?_⟩
        have := DenotesText.utf8 (String.ofList cs)
        rw [String.toList_ofList, ← hb] at this
        exact this
      · rintro ⟨s, rfl, h⟩
        cases h
        rw [(utf8Decode_iff _ _ s.toList (Nat.le_refl _)).2 rfl] at hd
        cases hd
        simp [String.ofList_toList]
  | _ =>
    refine ⟨fun w => ⟨fun h => (by cases h), ?_⟩, fun e h => (by cases h; exact ⟨_, rfl⟩)⟩
    rintro ⟨s, rfl, h⟩; cases h

/-- **C48 (length).** A text passes the length check iff its length is within the given bounds, both inclusive. -/
theorem C48_string_length (max min : Option Nat) (app : Val) (s : String) :
    validateLength max min app (.str s) = .ok () ↔ (∀ m, max = some m → s.length ≤ m) ∧ (∀ m, min = some m → m ≤ s.length) := by
  simp only [validateLength]
  have h1 : tooLong max s.length = true ↔ ¬ ∀ m, max = some m → s.length ≤ m := by
    cases max <;> simp [tooLong]
  have h2 : tooShort min s.length = true ↔ ¬ ∀ m, min = some m → m ≤ s.length := by
    cases min <;> simp [tooShort]
  by_cases h : tooLong max s.length = true
  · rw [if_pos h]
    constructor
    · intro hh; cases hh
    · intro hh; exact absurd hh.1 (h1.1 h)
  · rw [if_neg h]
    have h3 := Classical.not_not.1 (mt h1.2 h)
    by_cases h' : tooShort min s.length = true
    · rw [if_pos h']
      constructor
      · intro hh; cases hh
      · intro hh; exact absurd hh.2 (h2.1 h')
    · rw [if_neg h']
      have h4 := Classical.not_not.1 (mt h2.2 h')
      exact ⟨fun _ => ⟨h3, h4⟩, fun _ => rfl⟩

/-! ## C57 -/

/-- A hexadecimal digit character. -/
def IsHexDigit (c : Char) : Prop := ('0' ≤ c ∧ c ≤ '9') ∨ ('a' ≤ c ∧ c ≤ 'f') ∨ ('A' ≤ c ∧ c ≤ 'F')

theorem isHexDigit_toNat {c : Char} : IsHexDigit c ↔ (48 ≤ c.toNat ∧ c.toNat ≤ 57) ∨ (97 ≤ c.toNat ∧ c.toNat ≤ 102) ∨
    (65 ≤ c.toNat ∧ c.toNat ≤ 70) := Iff.rfl

theorem hex16_some {c : Char} (h : IsHexDigit c) : ∃ d, hex16 c = some d := by
  rw [isHexDigit_toNat] at h
  unfold hex16
  split
  · exact ⟨_, rfl⟩
  · split
    · exact ⟨_, rfl⟩
    · exact ⟨_, digitVal_ascii (by simp [isAsciiDigit]; omega)⟩

theorem body_hex {cs : List Char} (hne : cs ≠ []) (h : ∀ c ∈ cs, ∃ d, hex16 c = some d) : ∃ ds, Body hex16 cs ds := by
  induction cs with
  | nil => exact absurd rfl hne
  | cons c cs ih =>
    obtain ⟨d, hd⟩ := h c (by simp)
    cases cs with
    | nil => exact ⟨[d], .one hd⟩
    | cons c' cs' =>
      obtain ⟨ds, hds⟩ := ih (by simp) (fun x hx => h x (by simp [hx]))
      exact ⟨d :: ds, .cons hd hds⟩

/-- Prefixes tolerated by `int(s, 16)`. -/
def hexPrefixes : List (List Char) := [[], ['0', 'x'], ['0', 'X'], ['0', 'x', '_'], ['0', 'X', '_']]

/-- `cs` is what `int(cs, 16)` accepts: blanks, a sign, `0x`, hexadecimal digits with underscores. -/
def HexLiteral (cs : List Char) : Prop :=
  ∃ pre sgn pfx body post ds, cs = pre ++ sgn ++ pfx ++ body ++ post ∧ (∀ c ∈ pre, isSpace c = true) ∧
    (∀ c ∈ post, isSpace c = true) ∧ (sgn = [] ∨ sgn = ['+'] ∨ sgn = ['-']) ∧ pfx ∈ hexPrefixes ∧ Body hex16 body ds

theorem hexPrefix_spec (cs : List Char) : ∃ p ∈ hexPrefixes, cs = p ++ hexPrefix cs := by
  unfold hexPrefix
  split
  · exact ⟨['0', 'x', '_'], by decide, rfl⟩
  · exact ⟨['0', 'X', '_'], by decide, rfl⟩
  · exact ⟨['0', 'x'], by decide, rfl⟩
  · exact ⟨['0', 'X'], by decide, rfl⟩
  · exact ⟨[], by decide, rfl⟩

theorem hex16_x : hex16 'x' = none := by decide
theorem hex16_X : hex16 'X' = none := by decide
theorem hex16_us : hex16 '_' = none := by decide
theorem hex16_plus : hex16 '+' = none := by decide
theorem hex16_minus : hex16 '-' = none := by decide

theorem body_head2 {cs ds} (h : Body hex16 cs ds) : ∀ a b r, cs = a :: b :: r → b ≠ 'x' ∧ b ≠ 'X' := by
  intro a b r he
  cases h with
  | one h => simp at he
  | @cons c d cs' ds' h hb =>
    injection he with h1 h2
    obtain ⟨d, hd⟩ := hb.head b r h2
    constructor
    · rintro rfl; rw [hex16_x] at hd; cases hd
    · rintro rfl; rw [hex16_X] at hd; cases hd
  | under h hb =>
    injection he with h1 h2
    injection h2 with h3 h4
    subst h3
    exact ⟨by decide, by decide⟩

theorem body_not_us {cs ds} (h : Body hex16 cs ds) : ∀ r, cs ≠ '_' :: r := by
  intro r he
  obtain ⟨d, hd⟩ := h.head '_' r he
  rw [hex16_us] at hd; cases hd

theorem hexPrefix_body {p body : List Char} {ds} (hp : p ∈ hexPrefixes) (hb : Body hex16 body ds) : hexPrefix (p ++ body) = body := by
  have hus := body_not_us hb
  simp only [hexPrefixes, List.mem_cons, List.not_mem_nil, or_false] at hp
  rcases hp with rfl | rfl | rfl | rfl | rfl
  · simp only [List.nil_append]
    have h2 := body_head2 hb
    rw [hexPrefix]
    · intro r he; exact (h2 _ _ _ he).1 rfl
    · intro r he; exact (h2 _ _ _ he).2 rfl
    · intro r he; exact (h2 _ _ _ he).1 rfl
    · intro r he; exact (h2 _ _ _ he).2 rfl
  · cases body with
    | nil => exact absurd rfl hb.ne_nil
    | cons c r =>
      show hexPrefix ('0' :: 'x' :: c :: r) = c :: r
      rw [hexPrefix]
      intro r' he; exact hus r' he
  · cases body with
    | nil => exact absurd rfl hb.ne_nil
    | cons c r =>
      show hexPrefix ('0' :: 'X' :: c :: r) = c :: r
      rw [hexPrefix]
      intro r' he; exact hus r' he
  · rfl
  · rfl

theorem isSpace_hex {c : Char} {d : Nat} (h : hex16 c = some d) : isSpace c = false := by
  unfold hex16 at h
  split at h
  · rename_i hc; unfold isSpace; simp only [decide_eq_false_iff_not]; omega
  · split at h
    · rename_i hc; unfold isSpace; simp only [decide_eq_false_iff_not]; omega
    · exact not_space_of_digit h

theorem sign_prefixed {sgn p body : List Char} {ds} (hs : sgn = [] ∨ sgn = ['+'] ∨ sgn = ['-']) (hp : p ∈ hexPrefixes)
    (hb : Body hex16 body ds) : sign (sgn ++ (p ++ body)) = (decide (sgn = ['-']), p ++ body) := by
  rcases hs with rfl | rfl | rfl
  · have : ∃ c r, p ++ body = c :: r ∧ c ≠ '+' ∧ c ≠ '-' := by
      simp only [hexPrefixes, List.mem_cons, List.not_mem_nil, or_false] at hp
      rcases hp with rfl | rfl | rfl | rfl | rfl
      · cases body with
        | nil => exact absurd rfl hb.ne_nil
        | cons c r =>
          obtain ⟨d, hd⟩ := hb.head c r rfl
          exact ⟨c, r, rfl, (by rintro rfl; rw [hex16_plus] at hd; cases hd), (by rintro rfl; rw [hex16_minus] at hd; cases hd)⟩
      all_goals exact ⟨'0', _, rfl, by decide, by decide⟩
    obtain ⟨c, r, h1, h2, h3⟩ := this
    rw [List.nil_append, h1, sign]
    · simp
    · intro r' he; exact h2 (List.cons.inj he).1
    · intro r' he; exact h3 (List.cons.inj he).1
  · rfl
  · rfl

theorem parseHex_isSome_iff (cs : List Char) : (parseHex cs).isSome = true ↔ HexLiteral cs := by
  constructor
  · intro h
    obtain ⟨n, h⟩ := Option.isSome_iff_exists.1 h
    obtain ⟨pre, post, h1, h2, h3⟩ := strip_spec cs
    obtain ⟨sgn, h4, h5, h6⟩ := sign_spec (strip cs)
    obtain ⟨p, hp, hp2⟩ := hexPrefix_spec (sign (strip cs)).2
    rw [parseHex] at h
    obtain ⟨m, h7, h8⟩ := Option.map_eq_some_iff.1 h
    obtain ⟨ds, h9, h10⟩ := (body_of_digitsU hex16 16 _ 0 m).2 h7
    refine ⟨pre, sgn, p, _, post, ds, ?_, h2, h3, h5, hp, h9⟩
    rw [List.append_assoc (pre ++ sgn), ← hp2, List.append_assoc pre, ← h4]; exact h1
  · rintro ⟨pre, sgn, p, body, post, ds, rfl, h2, h3, h4, hp, h5⟩
    have hbl : ∃ l x, body = l ++ [x] := by
      rcases List.eq_nil_or_concat body with hb | ⟨l, x, hb⟩
      · exact absurd hb h5.ne_nil
      · exact ⟨l, x, by simpa using hb⟩
    obtain ⟨l, x, hlx⟩ := hbl
    have hstrip : strip (pre ++ sgn ++ p ++ body ++ post) = sgn ++ (p ++ body) := by
      rw [List.append_assoc (pre ++ sgn), List.append_assoc pre sgn]
      refine strip_of h2 h3 ?_ ?_ ?_
      · intro c r he
        rcases h4 with rfl | rfl | rfl
        · simp only [hexPrefixes, List.mem_cons, List.not_mem_nil, or_false] at hp
          rcases hp with rfl | rfl | rfl | rfl | rfl
          · obtain ⟨d, hd⟩ := h5.head c r he
            exact isSpace_hex hd
          all_goals (rw [← (List.cons.inj he).1]; decide)
        · cases he; exact isSpace_plus
        · cases he; exact isSpace_minus
      · intro c r he
        rw [hlx, ← List.append_assoc p, ← List.append_assoc sgn] at he
        have := List.append_inj' he rfl
        simp at this
        obtain ⟨d, hd⟩ := h5.last x l hlx
        rw [← this.2]
        exact isSpace_hex hd
      · rw [hlx]; simp
    rw [parseHex, hstrip, sign_prefixed h4 hp h5]
    simp only
    rw [hexPrefix_body hp h5, digitsU_true_of_body hex16 hex16_us 16 h5]
    rfl

/-- **C57 (acceptance).** Every text of exactly `LENGTH` hexadecimal digits is accepted unchanged. -/
theorem C57_hash_accepts (len : Nat) (hlen : 0 < len) (app : Val) (s : String) (h1 : s.length = len) (h2 : ∀ c ∈ s.toList, IsHexDigit c) :
    (hashType len).toNative app (.str s) = .ok (.str s) := by
  have hne : s.toList ≠ [] := by
    intro h
    have : s.length = 0 := by rw [← String.length_toList, h]; rfl
    omega
  obtain ⟨ds, hb⟩ := body_hex hne (fun c hc => hex16_some (h2 c hc))
  have : (parseHex s.toList).isSome = true :=
    (parseHex_isSome_iff _).2 ⟨[], [], [], s.toList, [], ds, by simp, by simp, by simp, by simp, by decide, hb⟩
  cases hp : parseHex s.toList with
  | none => rw [hp] at this; cases this
  | some n =>
    have h1' : s.toList.length = len := by rw [String.length_toList]; exact h1
    simp [hashType, hashNative, stringNative, h1, hp]

/-- **C57 (what is really accepted).** A text is accepted iff it has exactly `LENGTH` characters and is a hexadecimal literal in
the sense of `int(s, 16)` - weaker than the claim that it consists of hexadecimal digits. -/
theorem C57_hash_accepted (len : Nat) (app w : Val) (s : String) :
    (hashType len).toNative app (.str s) = .ok w ↔ w = .str s ∧ s.length = len ∧ HexLiteral s.toList := by
  rw [← parseHex_isSome_iff]
  simp only [hashType, hashNative, stringNative]
  by_cases h1 : s.length = len
  · cases hp : parseHex s.toList with
    | none => simp [h1, convErr]
    | some n =>
      simp only [h1, ne_eq, not_true_eq_false, if_false, Option.isNone_some, Bool.false_eq_true, Except.ok.injEq,
        Option.isSome_some, and_true]
      exact eq_comm
  · simp [h1, validErr]

/-- **C57 fails:** 32 characters that are not 32 hexadecimal digits pass as an MD5 hash. -/
theorem C57_counterexample : (hashType 32).toNative .none (.str " +0x_1_2_3_4_5_6_7_8_9_a_b_c_d\n ") =
    .ok (.str " +0x_1_2_3_4_5_6_7_8_9_a_b_c_d\n ") := by
  rw [C57_hash_accepted]
  refine ⟨rfl, by decide, ?_⟩
  rw [← parseHex_isSome_iff]
  decide +kernel

/-! ## C49 -/

theorem hexText_length (w n : Nat) : (hexText w n).length = w := by
  induction w generalizing n with
  | zero => rfl
  | succ w ih => simp [hexText, ih]

/-- A lower-case hexadecimal digit. -/
def IsLowerHex (c : Char) : Prop := ('0' ≤ c ∧ c ≤ '9') ∨ ('a' ≤ c ∧ c ≤ 'f')

theorem hexDigit_lower : ∀ d, d < 16 → IsLowerHex (hexDigit d) := by unfold IsLowerHex; decide
theorem hex16_hexDigit : ∀ d, d < 16 → hex16 (hexDigit d) = some d := by decide

theorem hexText_lower (w n : Nat) : ∀ c ∈ hexText w n, IsLowerHex c := by
  induction w generalizing n with
  | zero => intro c hc; cases hc
  | succ w ih =>
    intro c hc
    rcases List.mem_append.1 hc with hc | hc
    · exact ih _ c hc
    · rw [List.mem_singleton.1 hc]; exact hexDigit_lower _ (by omega)

/-- Digit-by-digit reading of a body without underscores. -/
theorem hexText_value (w n : Nat) (hn : n < 16 ^ w) : ∃ ds, (w = 0 ∨ Body hex16 (hexText w n) ds) ∧ ofDigits 16 0 ds = n ∧ (w = 0 → ds = []) := by
  have app : ∀ {cs ds}, Body hex16 cs ds → ∀ {c d}, hex16 c = some d → Body hex16 (cs ++ [c]) (ds ++ [d]) := by
    intro cs ds h
    induction h with
    | one h => intro c d hd; exact .cons h (.one hd)
    | cons h _ ih => intro c d hd; exact .cons h (ih hd)
    | under h _ ih => intro c d hd; exact .under h (ih hd)
  induction w generalizing n with
  | zero => simp at hn; subst hn; exact ⟨[], Or.inl rfl, rfl, fun _ => rfl⟩
  | succ w ih =>
    obtain ⟨ds, h1, h2, h3⟩ := ih (n / 16) (by rw [Nat.pow_succ] at hn; omega)
    refine ⟨ds ++ [n % 16], Or.inr ?_, ?_, by simp⟩
    · have hd := hex16_hexDigit (n % 16) (by omega)
      rcases h1 with rfl | h1
      · rw [h3 rfl]; exact .one hd
      · exact app h1 hd
    · rw [ofDigits_append, h2]
      simp
      omega

theorem parseHex_hexText (w n : Nat) (hw : 0 < w) (hn : n < 16 ^ w) : parseHex (hexText w n) = some (n : Int) := by
  obtain ⟨ds, h1, h2, _⟩ := hexText_value w n hn
  have hb : Body hex16 (hexText w n) ds := by rcases h1 with h1 | h1; · omega
                                              · exact h1
  have hbl : ∃ l x, hexText w n = l ++ [x] := by
    rcases List.eq_nil_or_concat (hexText w n) with hb' | ⟨l, x, hb'⟩
    · exact absurd hb' hb.ne_nil
    · exact ⟨l, x, by simpa using hb'⟩
  obtain ⟨l, x, hlx⟩ := hbl
  have hstrip : strip (hexText w n) = hexText w n := by
    have := strip_of (pre := []) (post := []) (mid := hexText w n) (by simp) (by simp) ?_ ?_ hb.ne_nil
    · simpa using this
    · intro c r he
      obtain ⟨d, hd⟩ := hb.head c r he
      exact isSpace_hex hd
    · intro c r he
      obtain ⟨d, hd⟩ := hb.last c r he
      exact isSpace_hex hd
  have hs := sign_prefixed (sgn := []) (p := []) (Or.inl rfl) (by decide) hb
  simp only [List.nil_append] at hs
  have hp := hexPrefix_body (p := []) (by decide) hb
  rw [List.nil_append] at hp
  rw [parseHex, hstrip, hs]
  simp only
  rw [hp, digitsU_true_of_body hex16 hex16_us 16 hb, h2]
  rfl

theorem isPrefixOf_mem {p cs : List Char} (h : p.isPrefixOf cs = true) : ∀ c ∈ p, c ∈ cs := by
  intro c hc
  obtain ⟨r, rfl⟩ := List.isPrefixOf_iff_prefix.1 h
  exact List.mem_append_left _ hc

theorem removeSub_none {pat : List Char} {x : Char} (hx : x ∈ pat) : ∀ {cs : List Char}, x ∉ cs → removeSub pat 0 cs = cs := by
  intro cs
  induction cs with
  | nil => intro _; rfl
  | cons c cs ih =>
    intro h
    rw [removeSub, if_neg, ih (fun hm => h (by simp [hm]))]
    intro hp
    exact h (isPrefixOf_mem hp x hx)

theorem dropWhile_id {p : Char → Bool} {l : List Char} (h : ∀ c ∈ l, p c = false) : l.dropWhile p = l := by
  cases l with
  | nil => rfl
  | cons c r => rw [List.dropWhile_cons_of_neg]; simp [h c (by simp)]

theorem stripBraces_none {cs : List Char} (h : ∀ c ∈ cs, c ≠ '{' ∧ c ≠ '}') : stripBraces cs = cs := by
  unfold stripBraces
  simp only
  have h' : ∀ c ∈ cs, (c == '{' || c == '}') = false := by
    intro c hc; simp [(h c hc).1, (h c hc).2]
  rw [dropWhile_id h', dropWhile_id (fun c hc => h' c (by simpa using hc)), List.reverse_reverse]

theorem lowerHex_plain {c : Char} (h : IsLowerHex c) : c ≠ ':' ∧ c ≠ '{' ∧ c ≠ '}' ∧ c ≠ '-' := by
  refine ⟨?_, ?_, ?_, ?_⟩ <;> (rintro rfl; revert h; unfold IsLowerHex; decide)

theorem filter_keep {l : List Char} (h : ∀ c ∈ l, c ≠ '-') : l.filter (· ≠ '-') = l := by
  rw [List.filter_eq_self]; intro c hc; simpa using h c hc

/-- The groups of the hexadecimal digits of `n`. -/
theorem uuidText_groups (n : Nat) : ∃ a b c d e : List Char, hexText 32 n = a ++ b ++ c ++ d ++ e ∧
    uuidText n = a ++ '-' :: b ++ '-' :: c ++ '-' :: d ++ '-' :: e ∧
    a.length = 8 ∧ b.length = 4 ∧ c.length = 4 ∧ d.length = 4 ∧ e.length = 12 := by
  have hl := hexText_length 32 n
  refine ⟨(hexText 32 n).take 8, ((hexText 32 n).drop 8).take 4, ((hexText 32 n).drop 12).take 4, ((hexText 32 n).drop 16).take 4,
    (hexText 32 n).drop 20, ?_, rfl, ?_, ?_, ?_, ?_, ?_⟩
  · generalize hexText 32 n = h at *
    have e1 : h = h.take 8 ++ h.drop 8 := (List.take_append_drop 8 h).symm
    have e2 : h.drop 8 = (h.drop 8).take 4 ++ h.drop 12 := by
      have := (List.take_append_drop 4 (h.drop 8)).symm
      rwa [List.drop_drop] at this
    have e3 : h.drop 12 = (h.drop 12).take 4 ++ h.drop 16 := by
      have := (List.take_append_drop 4 (h.drop 12)).symm
      rwa [List.drop_drop] at this
    have e4 : h.drop 16 = (h.drop 16).take 4 ++ h.drop 20 := by
      have := (List.take_append_drop 4 (h.drop 16)).symm
      rwa [List.drop_drop] at this
    simp only [List.append_assoc]
    rw [← e4, ← e3, ← e2, ← e1]
  all_goals simp [hl]

theorem uuidHex_uuidText (n : Nat) : uuidHex (uuidText n) = hexText 32 n := by
  obtain ⟨a, b, c, d, e, h1, h2, -⟩ := uuidText_groups n
  have hl : ∀ x ∈ hexText 32 n, IsLowerHex x := hexText_lower 32 n
  have hx : ∀ x ∈ uuidText n, IsLowerHex x ∨ x = '-' := by
    intro x hx
    rw [h2] at hx
    simp only [List.mem_append, List.mem_cons] at hx
    have := hl x
    rw [h1] at this
    simp only [List.mem_append] at this
    grind
  have hc : ':' ∉ uuidText n := by
    intro hm
    rcases hx _ hm with h | h
    · exact (lowerHex_plain h).1 rfl
    · exact absurd h (by decide)
  unfold uuidHex
  rw [removeSub_none (x := ':') (by decide) hc, removeSub_none (x := ':') (by decide) hc, stripBraces_none]
  · have key : ∀ l : List Char, (∀ x ∈ l, x ∈ hexText 32 n) → l.filter (· ≠ '-') = l := fun l h =>
      filter_keep fun x hxx => (lowerHex_plain (hl x (h x hxx))).2.2.2
    rw [h2]
    simp only [List.filter_append, List.filter_cons, List.cons_append, List.append_assoc]
    simp only [ne_eq, not_true_eq_false, decide_false, Bool.false_eq_true, if_false]
    have k := fun l h => key l h
    simp only [ne_eq] at k
    rw [k a (by rw [h1]; simp +contextual), k b (by rw [h1]; simp +contextual), k c (by rw [h1]; simp +contextual),
      k d (by rw [h1]; simp +contextual), k e (by rw [h1]; simp +contextual), h1]
    simp only [List.append_assoc]
  · intro x hxx
    rcases hx x hxx with h | rfl
    · exact ⟨(lowerHex_plain h).2.1, (lowerHex_plain h).2.2.1⟩
    · decide

/-- **C49.** For every UUID, the exported text has the canonical form `8-4-4-4-12` of lower-case hexadecimal digits, and importing
it gives the same UUID. -/
theorem C49_uuid_round_trip (str : Val → String) (eapp iapp : Val) (n : Nat) (hn : n < 2 ^ 128) :
    ∃ s : String, (uuidType str).toPrimitive eapp (.uuid n) = .ok (.str s) ∧ (uuidType str).toNative iapp (.str s) = .ok (.uuid n) ∧
      ∃ a b c d e : List Char, s.toList = a ++ '-' :: b ++ '-' :: c ++ '-' :: d ++ '-' :: e ∧
        a.length = 8 ∧ b.length = 4 ∧ c.length = 4 ∧ d.length = 4 ∧ e.length = 12 ∧
        ∀ x ∈ a ++ b ++ c ++ d ++ e, IsLowerHex x := by
  refine ⟨String.ofList (uuidText n), rfl, ?_, ?_⟩
  · have hp : parseUuid (uuidText n) = some n := by
      unfold parseUuid
      rw [uuidHex_uuidText, hexText_length, if_pos rfl, parseHex_hexText 32 n (by decide) (by
        have : (16 : Nat) ^ 32 = 2 ^ 128 := by decide
        omega)]
      rfl
    simp [uuidType, uuidNative, hp]
  · obtain ⟨a, b, c, d, e, h1, h2, h3⟩ := uuidText_groups n
    refine ⟨a, b, c, d, e, by rw [String.toList_ofList]; exact h2, h3.1, h3.2.1, h3.2.2.1, h3.2.2.2.1, h3.2.2.2.2, ?_⟩
    rw [← h1]
    exact hexText_lower 32 n

/-! ## The hypotheses are met -/
example : uuidText 0x12345678123456781234567812345678 = "12345678-1234-5678-1234-567812345678".toList := by decide +kernel
example : (uuidType (fun _ => "")).toNative .none (.str "{urn:uuid:12345678-1234-5678-1234-567812345678}") =
    .ok (.uuid 0x12345678123456781234567812345678) := rfl
example : ∀ c ∈ "d41d8cd98f00b204e9800998ecf8427E".toList, IsHexDigit c := by unfold IsHexDigit; decide
example : stringType.toNative .none (.bytes [0xE2, 0x82, 0xAC]) = .ok (.str "€") := rfl
example : stringType.toNative .none (.bytes [0xC0, 0x80]) = convErr "decode" := rfl
example : stringType.toNative .none (.int (-120)) = .ok (.str "-120") := rfl
example : validateLength (some 3) (some 2) .none (.str "abc") = .ok () := rfl

end Verif.Types
