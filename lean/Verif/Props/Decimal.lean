import Verif.Types.Number

/-!
# C56: decimals survive export and import
-/
namespace Verif.Types
open Verif.Py

theorem spanDigits_of {xs : List Char} {ds : List Nat} (h : digitsOf xs = some ds) (rest : List Char)
    (hr : ∀ c r, rest = c :: r → digitVal c = none) : spanDigits (xs ++ rest) = (ds, rest) := by
  induction xs generalizing ds with
  | nil =>
    cases h
    cases rest with
    | nil => rfl
    | cons c r => simp [spanDigits, hr c r rfl]
  | cons c cs ih =>
    rw [digitsOf] at h
    cases hc : digitVal c with
    | none => simp [hc] at h
    | some d =>
      cases hcs : digitsOf cs with
      | none => simp [hc, hcs] at h
      | some e =>
        simp only [hc, hcs, Option.some.injEq] at h
        subst h
        simp [spanDigits, hc, ih hcs]

theorem digitsOf_length : ∀ {xs : List Char} {ds : List Nat}, digitsOf xs = some ds → ds.length = xs.length := by
  intro xs
  induction xs with
  | nil => intro ds h; cases h; rfl
  | cons c cs ih =>
    intro ds h
    rw [digitsOf] at h
    cases hc : digitVal c with
    | none => simp [hc] at h
    | some d =>
      cases hcs : digitsOf cs with
      | none => simp [hc, hcs] at h
      | some e =>
        simp only [hc, hcs, Option.some.injEq] at h
        subst h
        simp [ih hcs]

theorem digitsOf_split {xs ys : List Char} {ds : List Nat} (h : digitsOf (xs ++ ys) = some ds) :
    ∃ d1 d2, digitsOf xs = some d1 ∧ digitsOf ys = some d2 ∧ ds = d1 ++ d2 := by
  induction xs generalizing ds with
  | nil => exact ⟨[], ds, rfl, h, rfl⟩
  | cons c cs ih =>
    rw [List.cons_append, digitsOf] at h
    cases hc : digitVal c with
    | none => simp [hc] at h
    | some d =>
      cases hcs : digitsOf (cs ++ ys) with
      | none => simp [hc, hcs] at h
      | some e =>
        simp only [hc, hcs, Option.some.injEq] at h
        subst h
        obtain ⟨d1, d2, h1, h2, rfl⟩ := ih hcs
        exact ⟨d :: d1, d2, by simp [digitsOf, hc, h1], h2, rfl⟩

theorem digitsOf_zeros (k : Nat) : digitsOf (List.replicate k '0') = some (List.replicate k 0) := by
  induction k with
  | zero => rfl
  | succ k ih =>
    have : digitVal '0' = some 0 := by decide
    simp [List.replicate_succ, digitsOf, ih, this]

theorem ofDigits_zeros (b k : Nat) (ds : List Nat) : ofDigits b 0 (List.replicate k 0 ++ ds) = ofDigits b 0 ds := by
  induction k with
  | zero => rfl
  | succ k ih => simp [List.replicate_succ, ih]

theorem expDigits_natText (neg : Bool) (n : Nat) : expDigits neg (natText n) = some (applySign neg n) := by
  obtain ⟨ds, h1, h2⟩ := natText_digits n
  have hs := spanDigits_of h1 [] (by intro c r h; cases h)
  rw [List.append_nil] at hs
  have hne : ds ≠ [] := by
    intro he
    have := digitsOf_length h1
    rw [he] at this
    exact natText_ne_nil n (List.length_eq_zero_iff.1 this.symm)
  simp [expDigits, hs, hne, h2]

/-- The exponent text denotes the exponent. -/
theorem expPart_signedText (x : Int) : expPart ('E' :: signedText x) = some x := by
  unfold signedText
  split
  · rename_i h
    simp only [expPart, sign, expDigits_natText, applySign]
    simp [h]
  · rename_i h
    simp only [expPart, sign, expDigits_natText, applySign]
    simp
    omega

/-- The text after the digits: nothing, or the exponent. -/
def ExpText (x : Int) (s : List Char) : Prop := (s = [] ∧ x = 0) ∨ s = 'E' :: signedText x

theorem ExpText.part {x : Int} {s : List Char} (h : ExpText x s) : expPart s = some x := by
  rcases h with ⟨rfl, rfl⟩ | rfl
  · rfl
  · exact expPart_signedText x

theorem digitVal_E : digitVal 'E' = none := by decide
theorem digitVal_dot : digitVal '.' = none := by decide

theorem ExpText.head {x : Int} {s : List Char} (h : ExpText x s) : ∀ c r, s = c :: r → digitVal c = none ∧ c ≠ '.' := by
  rcases h with ⟨rfl, rfl⟩ | rfl
  · intro c r h; cases h
  · intro c r h; cases h; exact ⟨digitVal_E, by decide⟩

/-- Reading digits with a point after `place` of them, and an exponent. -/
theorem parseNum_point (ds : List Char) (vs : List Nat) (hds : digitsOf ds = some vs) (hne : ds ≠ []) (place x : Int) (s : List Char)
    (hx : ExpText x s) (hp : place ≤ ds.length) :
    parseNum (pointText ds place ++ s) = some (ofDigits 10 0 vs, x - (ds.length - place)) := by
  have hlen := digitsOf_length hds
  have hvne : vs ≠ [] := by
    intro he; rw [he] at hlen; exact hne (List.length_eq_zero_iff.1 hlen.symm)
  have hfs : ∀ r, (∀ c r', r = c :: r' → digitVal c = none ∧ c ≠ '.') → fracPart r = ([], r) := by
    intro r hr
    cases r with
    | nil => rfl
    | cons c r =>
      rw [fracPart]
      intro r' he
      injection he with h1 h2
      exact (hr c r rfl).2 h1
  unfold pointText
  split
  · rename_i h0
    have hz : digitsOf ['0'] = some [0] := by decide
    have h1 : spanDigits (('0' :: '.' :: (List.replicate (-place).toNat '0' ++ ds)) ++ s) =
        ([0], '.' :: (List.replicate (-place).toNat '0' ++ ds ++ s)) := by
      have := spanDigits_of hz ('.' :: (List.replicate (-place).toNat '0' ++ ds ++ s)) (by intro c r h; cases h; exact digitVal_dot)
      simpa using this
    have h2 : spanDigits (List.replicate (-place).toNat '0' ++ ds ++ s) = (List.replicate (-place).toNat 0 ++ vs, s) :=
      spanDigits_of (digitsOf_append _ _ _ _ (digitsOf_zeros _) hds) s (fun c r h => (hx.head c r h).1)
    simp only [parseNum, h1, fracPart, h2]
    rw [if_neg (by simp), hx.part]
    simp only [Option.map_some, List.singleton_append, ofDigits_cons, Nat.mul_zero, Nat.add_zero, ofDigits_zeros,
      List.length_append, List.length_replicate, hlen]
    congr 2
    push_cast
    omega
  · rename_i h0
    split
    · rename_i h1
      have he : place.toNat - ds.length = 0 := by omega
      rw [he]
      simp only [List.replicate_zero, List.append_nil]
      have h2 := spanDigits_of hds s (fun c r h => (hx.head c r h).1)
      simp only [parseNum, h2, hfs s hx.head]
      rw [if_neg (by simp [hvne]), hx.part]
      simp only [Option.map_some, List.append_nil, List.length_nil, Nat.cast_zero, Int.sub_zero]
      congr 2
      omega
    · rename_i h1
      have hsplit : digitsOf (ds.take place.toNat ++ ds.drop place.toNat) = some vs := by rw [List.take_append_drop]; exact hds
      obtain ⟨d1, d2, h3, h4, h5⟩ := digitsOf_split hsplit
      have h6 := spanDigits_of h3 ('.' :: (ds.drop place.toNat ++ s)) (by intro c r h; cases h; exact digitVal_dot)
      have h7 := spanDigits_of h4 s (fun c r h => (hx.head c r h).1)
      have h8 : d1 ≠ [] := by
        intro he
        have := digitsOf_length h3
        rw [he] at this
        simp at this
        omega
      have h9 := digitsOf_length h4
      simp only [parseNum, List.append_assoc, List.cons_append, h6, fracPart, h7]
      rw [if_neg (by simp [h8]), hx.part]
      simp only [Option.map_some, ← h5, h9, List.length_drop]
      congr 2
      omega

theorem decAbs_parse (c : Nat) (e : Int) : parseNum (decAbsText c e) = some (c, e) := by
  obtain ⟨vs, h1, h2⟩ := natText_digits c
  have hne := natText_ne_nil c
  unfold decAbsText
  simp only
  split
  · rename_i h
    have := parseNum_point (natText c) vs h1 hne (e + (natText c).length) 0 [] (Or.inl ⟨rfl, rfl⟩) (by omega)
    rw [List.append_nil] at this
    rw [this, h2]
    congr 2
    omega
  · rename_i h
    have hpos : 1 ≤ (natText c).length := by
      cases hh : natText c with
      | nil => exact absurd hh hne
      | cons x xs => simp
    have hex : ExpText (e + (natText c).length - 1) (if e + (natText c).length = 1 then [] else 'E' :: signedText (e + (natText c).length - 1)) := by
      split
      · exact Or.inl ⟨rfl, by omega⟩
      · exact Or.inr rfl
    rw [parseNum_point (natText c) vs h1 hne 1 _ _ hex (by omega), h2]
    congr 2
    omega

/-- Characters of exported decimals: digits and `.`, `E`, `+`, `-`. -/
def plainChar (c : Char) : Prop := isAsciiDigit c = true ∨ c = '.' ∨ c = 'E' ∨ c = '+' ∨ c = '-'

theorem plain_ok {c : Char} (h : plainChar c) : isSpaceU c = false ∧ c ≠ '_' := by
  rcases h with h | rfl | rfl | rfl | rfl
  · have hh := of_decide_eq_true h
    refine ⟨?_, ?_⟩
    · unfold isSpaceU isSpace
      simp only [Bool.or_eq_false_iff, decide_eq_false_iff_not]
      omega
    · rintro rfl; revert hh; decide
  all_goals exact ⟨by decide, by decide⟩

theorem natText_plain (n : Nat) : ∀ c ∈ natText n, plainChar c := fun c hc => Or.inl (natText_ascii n c hc)

theorem zero_plain : plainChar '0' := Or.inl (by decide)

theorem pointText_plain (ds : List Char) (p : Int) (h : ∀ c ∈ ds, plainChar c) : ∀ c ∈ pointText ds p, plainChar c := by
  intro c hc
  unfold pointText at hc
  split at hc
  · simp only [List.mem_cons, List.mem_append, List.mem_replicate] at hc
    rcases hc with rfl | rfl | ⟨_, rfl⟩ | hc
    · exact zero_plain
    · exact Or.inr (Or.inl rfl)
    · exact zero_plain
    · exact h c hc
  · split at hc
    · simp only [List.mem_append, List.mem_replicate] at hc
      rcases hc with hc | ⟨_, rfl⟩
      · exact h c hc
      · exact zero_plain
    · simp only [List.mem_cons, List.mem_append] at hc
      rcases hc with hc | rfl | hc
      · exact h c (List.mem_of_mem_take hc)
      · exact Or.inr (Or.inl rfl)
      · exact h c (List.mem_of_mem_drop hc)

theorem signedText_plain (x : Int) : ∀ c ∈ signedText x, plainChar c := by
  intro c hc
  unfold signedText at hc
  split at hc <;> rcases List.mem_cons.1 hc with rfl | hc
  · simp [plainChar]
  · exact natText_plain _ c hc
  · simp [plainChar]
  · exact natText_plain _ c hc

theorem decAbsText_plain (c : Nat) (e : Int) : ∀ x ∈ decAbsText c e, plainChar x := by
  intro x hx
  unfold decAbsText at hx
  simp only at hx
  split at hx
  · exact pointText_plain _ _ (natText_plain c) x hx
  · rcases List.mem_append.1 hx with hx | hx
    · exact pointText_plain _ _ (natText_plain c) x hx
    · split at hx
      · cases hx
      · rcases List.mem_cons.1 hx with rfl | hx
        · simp [plainChar]
        · exact signedText_plain _ x hx

theorem decAbsText_head (c : Nat) (e : Int) : ∃ d r, decAbsText c e = d :: r ∧ isAsciiDigit d = true := by
  have key : ∀ p s, ∃ d r, pointText (natText c) p ++ s = d :: r ∧ isAsciiDigit d = true := by
    intro p s
    have hne := natText_ne_nil c
    have ha := natText_ascii c
    cases hh : natText c with
    | nil => exact absurd hh hne
    | cons x xs =>
      rw [hh] at ha
      have hx := ha x (by simp)
      unfold pointText
      split
      · exact ⟨'0', _, rfl, by decide⟩
      · split
        · exact ⟨x, _, rfl, hx⟩
        · rename_i h0 _
          obtain ⟨k, hk⟩ : ∃ k, p.toNat = k + 1 := ⟨p.toNat - 1, by omega⟩
          rw [hk]
          exact ⟨x, _, rfl, hx⟩
  unfold decAbsText
  simp only
  split
  · obtain ⟨d, r, h1, h2⟩ := key (e + (natText c).length) []
    rw [List.append_nil] at h1
    exact ⟨d, r, h1, h2⟩
  · exact key _ _

theorem stripU_plain (cs : List Char) (h : ∀ c ∈ cs, plainChar c) : (stripU cs).filter (· ≠ '_') = cs := by
  have h1 : ∀ l : List Char, (∀ c ∈ l, plainChar c) → l.dropWhile isSpaceU = l := by
    intro l hl
    cases l with
    | nil => rfl
    | cons c r => rw [List.dropWhile_cons_of_neg]; simp [(plain_ok (hl c (by simp))).1]
  have h2 : stripU cs = cs := by
    unfold stripU
    rw [h1 cs h, h1 cs.reverse (fun c hc => h c (by simpa using hc)), List.reverse_reverse]
  rw [h2, List.filter_eq_self]
  intro c hc
  simpa using (plain_ok (h c hc)).2

theorem toLower_digit : ∀ c : Char, isAsciiDigit c = true → c.toLower = c := by
  intro c h
  have h := of_decide_eq_true h
  unfold Char.toLower
  split
  · rename_i hc
    exfalso
    have : 65 ≤ c.toNat := by
      have := hc.1
      exact this
    omega
  · rfl

theorem parseDecAbs_num (neg : Bool) {cs : List Char} {c : Nat} {e : Int} (h : parseNum cs = some (c, e))
    (hh : ∃ d r, cs = d :: r ∧ isAsciiDigit d = true) : parseDecAbs neg cs = some (.fin neg c e) := by
  obtain ⟨d, r, rfl, hd⟩ := hh
  have hl : lower (d :: r) = d :: lower r := by simp [lower, toLower_digit d hd]
  have hne : ∀ x : Char, isAsciiDigit x = false → d ≠ x := by
    intro x hx he; rw [he, hx] at hd; cases hd
  have h1 : lower (d :: r) ∉ infWords := by
    rw [hl]
    intro hm
    simp only [infWords, List.mem_cons, List.not_mem_nil, or_false] at hm
    rcases hm with hm | hm
    · exact hne 'i' (by decide) (List.cons.inj hm).1
    · exact hne 'i' (by decide) (List.cons.inj hm).1
  have h2 : isNanText (d :: r) = false := by
    unfold isNanText
    rw [hl]
    have e1 : "nan".toList.isPrefixOf (d :: lower r) = false := by
      show (('n' == d) && _) = false
      rw [show ('n' == d) = false from by simpa using fun h => hne 'n' (by decide) h.symm]
      rfl
    have e2 : "snan".toList.isPrefixOf (d :: lower r) = false := by
      show (('s' == d) && _) = false
      rw [show ('s' == d) = false from by simpa using fun h => hne 's' (by decide) h.symm]
      rfl
    rw [e1, e2]
    rfl
  rw [parseDecAbs, if_neg h1, h2, h]
  rfl

/-- `Decimal(str(d)) == d`, exactly: sign, coefficient and exponent. -/
theorem parseDec_decText (d : Dec) : parseDec (decText d) = some d := by
  cases d with
  | inf neg => cases neg <;> rfl
  | nan neg => cases neg <;> rfl
  | fin neg c e =>
    have hnum := decAbs_parse c e
    have hhead := decAbsText_head c e
    have hplain : ∀ x ∈ decText (.fin neg c e), plainChar x := by
      intro x hx
      cases neg
      · exact decAbsText_plain c e x (by simpa [decText] using hx)
      · rcases (by simpa [decText] using hx : x = '-' ∨ x ∈ decAbsText c e) with rfl | hx
        · simp [plainChar]
        · exact decAbsText_plain c e x hx
    unfold parseDec
    simp only
    rw [stripU_plain _ hplain]
    cases neg
    · have hs : sign (decText (.fin false c e)) = (false, decAbsText c e) := by
        obtain ⟨d, r, h1, h2⟩ := hhead
        simp only [decText, Bool.false_eq_true, if_false, List.nil_append, h1]
        rw [sign]
        · intro r' he; rw [(List.cons.inj he).1] at h2; revert h2; decide
        · intro r' he; rw [(List.cons.inj he).1] at h2; revert h2; decide
      rw [hs]
      exact parseDecAbs_num false hnum hhead
    · exact parseDecAbs_num true hnum hhead

/-- **C56.** Exporting any `Decimal` and importing the text gives the same sign, digits and exponent (and infinities and
NaN survive too). -/
theorem C56_decimal_round_trip (str : Val → String) (min max : Option Val) (eapp iapp : Val) (d : Dec) :
    ∃ s, (decimalType str min max).toPrimitive eapp (.decimal d) = .ok (.str s) ∧
      (decimalType str min max).toNative iapp (.str s) = .ok (.decimal d) := by
  refine ⟨String.ofList (decText d), rfl, ?_⟩
  simp only [decimalType, decimalNative, decimalOfText, String.toList_ofList, parseDec_decText]

/-- **C56 (through any input).** Whatever was accepted on import comes back unchanged from its own export. -/
theorem C56_import_export_import (str : Val → String) (min max : Option Val) (eapp iapp u v : Val)
    (h : (decimalType str min max).toNative iapp u = .ok v) :
    ∃ s, (decimalType str min max).toPrimitive eapp v = .ok (.str s) ∧
      (decimalType str min max).toNative iapp (.str s) = .ok v := by
  have hd : ∃ d, v = .decimal d := by
    have hot : ∀ cs, decimalOfText cs = .ok v → ∃ d, v = .decimal d := by
      intro cs hh
      unfold decimalOfText at hh
      cases hp : parseDec cs with
      | none => rw [hp] at hh; cases hh
      | some d => rw [hp] at hh; cases hh; exact ⟨d, rfl⟩
    simp only [decimalType] at h
    cases u with
    | decimal d => cases h; exact ⟨d, rfl⟩
    | bool b => cases h; exact ⟨_, rfl⟩
    | _ => exact hot _ h
  obtain ⟨d, rfl⟩ := hd
  exact C56_decimal_round_trip str min max eapp iapp d

/-! ## The hypotheses are met -/
example : (decimalType (fun _ => "")).toPrimitive .none (.decimal (.fin true 1230 (-9))) = .ok (.str "-0.000001230") := rfl
example : (decimalType (fun _ => "")).toNative .none (.str " 12_3.450E+3 ") = .ok (.decimal (.fin false 123450 0)) := rfl
example : (decimalType (fun _ => "")).toNative .none (.int (-12)) = .ok (.decimal (.fin true 12 0)) := rfl

end Verif.Types
