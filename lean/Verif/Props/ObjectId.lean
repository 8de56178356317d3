import Verif.Types.ObjectId
import Verif.Props.Text
import Verif.Props.Total

/-!
# C110: MongoDB object ids
-/
namespace Verif.Types

open Verif.Py

/-! ## Specification -/

/-- The lower-case form of a hexadecimal digit. -/
def lowerHex (c : Char) : Char := if 'A' ≤ c ∧ c ≤ 'F' then Char.ofNat (c.toNat + 32) else c

/-! ## Proofs -/

theorem fromHexDigit_some (c : Char) : (∃ d, fromHexDigit c = some d) ↔ IsHexDigit c := by
  rw [isHexDigit_toNat]
  unfold fromHexDigit
  constructor
  · rintro ⟨d, h⟩
    split at h
    · omega
    · split at h
      · omega
      · split at h
        · omega
        · cases h
  · intro h
    split
    · exact ⟨_, rfl⟩
    · split
      · exact ⟨_, rfl⟩
      · rw [if_pos (by omega)]; exact ⟨_, rfl⟩

theorem fromHexDigit_table : ∀ k, k < 128 → ∀ d, fromHexDigit (Char.ofNat k) = some d → d < 16 ∧ hexDigit d = lowerHex (Char.ofNat k) := by
  have : ∀ k, k < 128 → (match fromHexDigit (Char.ofNat k) with | some d => decide (d < 16 ∧ hexDigit d = lowerHex (Char.ofNat k)) | none => true) = true := by
    unfold lowerHex
    decide +kernel
  intro k hk d hd
  have := this k hk
  rw [hd] at this
  exact of_decide_eq_true this

theorem fromHexDigit_lower {c : Char} {d : Nat} (h : fromHexDigit c = some d) : d < 16 ∧ hexDigit d = lowerHex c := by
  have hc : c.toNat < 128 := by
    have := (fromHexDigit_some c).1 ⟨d, h⟩
    rw [isHexDigit_toNat] at this
    omega
  have := fromHexDigit_table c.toNat hc d
  rw [Char.ofNat_toNat] at this
  exact this h

theorem fromHex_snoc (cs : List Char) (c : Char) (a : Nat) : fromHex a (cs ++ [c]) = (fromHex a cs).bind fun m => (fromHexDigit c).map fun d => 16 * m + d := by
  induction cs generalizing a with
  | nil => simp only [List.nil_append, fromHex, Option.bind_some]; cases fromHexDigit c <;> rfl
  | cons x cs ih =>
    simp only [List.cons_append, fromHex]
    cases fromHexDigit x with
    | none => rfl
    | some d => exact ih _

theorem fromHex_text (cs : List Char) : ∀ n, fromHex 0 cs = some n → n < 16 ^ cs.length ∧ hexText cs.length n = cs.map lowerHex := by
  induction h : cs.length generalizing cs with
  | zero =>
    intro n hn
    rw [List.length_eq_zero_iff] at h
    subst h
    simp only [fromHex, Option.some.injEq] at hn
    subst hn
    exact ⟨by decide, rfl⟩
  | succ w ih =>
    intro n hn
    rcases List.eq_nil_or_concat cs with rfl | ⟨l, x, rfl⟩
    · cases h
    · rw [List.concat_eq_append] at h hn ⊢
      have hl : l.length = w := by simpa using h
      rw [fromHex_snoc] at hn
      cases hm : fromHex 0 l with
      | none => rw [hm] at hn; cases hn
      | some m =>
        cases hd : fromHexDigit x with
        | none => rw [hm, hd] at hn; cases hn
        | some d =>
          rw [hm, hd] at hn
          simp only [Option.bind_some, Option.map_some, Option.some.injEq] at hn
          obtain ⟨h1, h2⟩ := ih l hl m hm
          obtain ⟨h3, h4⟩ := fromHexDigit_lower hd
          have e1 : n / 16 = m := by omega
          have e2 : n % 16 = d := by omega
          refine ⟨by rw [Nat.pow_succ]; omega, ?_⟩
          rw [hexText, e1, e2, h2, h4]
          simp

theorem fromHex_digits (cs : List Char) (a : Nat) : (∃ n, fromHex a cs = some n) ↔ ∀ c ∈ cs, IsHexDigit c := by
  induction cs generalizing a with
  | nil => simp [fromHex]
  | cons c cs ih =>
    rw [fromHex]
    cases hd : fromHexDigit c with
    | none =>
      simp only [reduceCtorEq, exists_false, false_iff]
      intro h
      obtain ⟨d, hd'⟩ := (fromHexDigit_some c).2 (h c (by simp))
      rw [hd] at hd'
      cases hd'
    | some d =>
      simp only [ih]
      have := (fromHexDigit_some c).1 ⟨d, hd⟩
      simp [this]

theorem fromHexDigit_hexDigit : ∀ d, d < 16 → fromHexDigit (hexDigit d) = some d := by decide

theorem fromHex_hexText (w n : Nat) (hn : n < 16 ^ w) : fromHex 0 (hexText w n) = some n := by
  induction w generalizing n with
  | zero => simp at hn; subst hn; rfl
  | succ w ih =>
    rw [hexText, fromHex_snoc, ih (n / 16) (by rw [Nat.pow_succ] at hn; omega), fromHexDigit_hexDigit _ (by omega)]
    simp only [Option.bind_some, Option.map_some, Option.some.injEq]
    omega

theorem oidNative_str (str : Val → String) (s : String) :
    oidNative str (.str s) = match parseOid s.toList with
      | some n => .ok (.obj n)
      | none => convErr "convert" := rfl

theorem oidStr_obj (str : Val → String) {n : Nat} (hn : n < 2 ^ 96) : oidStr str (.obj n) = String.ofList (hexText 24 n) := by
  have : oidStr str (.obj n) = if n < 2 ^ 96 then String.ofList (hexText 24 n) else str (.obj n) := by unfold oidStr; rfl
  rw [this, if_pos hn]

theorem pow_oid : (16 : Nat) ^ 24 = 2 ^ 96 := by decide

/-- **C110** (round trip).  The exported form of an object id are 24 lower-case hexadecimal digits; importing it gives the same object id. -/
theorem C110_round_trip (str : Val → String) (eapp iapp : Val) (n : Nat) (hn : n < 2 ^ 96) :
    ∃ s : String, (objectIdType str).toPrimitive eapp (.obj n) = .ok (.str s) ∧ (objectIdType str).toNative iapp (.str s) = .ok (.obj n) ∧
      s.toList.length = 24 ∧ ∀ c ∈ s.toList, IsLowerHex c := by
  refine ⟨String.ofList (hexText 24 n), ?_, ?_, ?_, ?_⟩
  · unfold objectIdType
    simp only [oidStr_obj str hn]
  · unfold objectIdType
    simp only []
    rw [oidNative_str, String.toList_ofList, parseOid, hexText_length, if_pos rfl, fromHex_hexText 24 n (by rw [pow_oid]; exact hn)]
  · rw [String.toList_ofList, hexText_length]
  · rw [String.toList_ofList]; exact hexText_lower 24 n

/-- **C110** (which texts).  A text is accepted exactly if it consists of 24 hexadecimal digits. -/
theorem C110_accepted (str : Val → String) (app : Val) (s : String) :
    (∃ w, (objectIdType str).toNative app (.str s) = .ok w) ↔ s.toList.length = 24 ∧ ∀ c ∈ s.toList, IsHexDigit c := by
  show (∃ w, oidNative str (.str s) = .ok w) ↔ _
  rw [oidNative_str, parseOid]
  by_cases hl : s.toList.length = 24
  · rw [if_pos hl, ← fromHex_digits s.toList 0]
    cases fromHex 0 s.toList with
    | none => simp [convErr, hl]
    | some n => simp [hl]
  · rw [if_neg hl]
    simp [convErr, hl]

/-- **C110** (which object id).  An accepted text is imported as the object id whose exported form is the text in lower case. -/
theorem C110_same_digits (str : Val → String) (eapp app : Val) (s : String) (w : Val) (h : (objectIdType str).toNative app (.str s) = .ok w) :
    (objectIdType str).toPrimitive eapp w = .ok (.str (String.ofList (s.toList.map lowerHex))) := by
  change oidNative str (.str s) = .ok w at h
  rw [oidNative_str, parseOid] at h
  by_cases hl : s.toList.length = 24
  · rw [if_pos hl] at h
    cases hf : fromHex 0 s.toList with
    | none => rw [hf] at h; cases h
    | some n =>
      rw [hf] at h
      injection h with h
      subst h
      have := fromHex_text s.toList n hf
      rw [hl, pow_oid] at this
      show Except.ok (Val.str (oidStr str (.obj n))) = _
      rw [oidStr_obj str this.1, this.2]
  · rw [if_neg hl] at h; cases h

/-- **C110** (any value).  Converting any value gives an object id, which is converted to itself, or a conversion error; no other exception. -/
theorem C110_total (str : Val → String) (app v : Val) :
    (∃ n, n < 2 ^ 96 ∧ (objectIdType str).toNative app v = .ok (.obj n) ∧ (objectIdType str).toNative app (.obj n) = .ok (.obj n)) ∨
      (∃ e, (objectIdType str).toNative app v = .error e ∧ FieldError e) := by
  have self : ∀ n, n < 2 ^ 96 → (objectIdType str).toNative app (.obj n) = .ok (.obj n) := by
    intro n hn
    show (if decide (n < 2 ^ 96) = true then _ else _) = _
    rw [if_pos (decide_eq_true hn)]
  show (∃ n, _ ∧ oidNative str v = _ ∧ _) ∨ (∃ e, oidNative str v = _ ∧ _)
  cases ho : isOid v with
  | true =>
    cases v with
    | obj n =>
      have hn : n < 2 ^ 96 := of_decide_eq_true ho
      exact .inl ⟨n, hn, self n hn, self n hn⟩
    | _ => cases ho
  | false =>
    unfold oidNative
    rw [ho]
    simp only [Bool.false_eq_true, if_false]
    cases hp : parseOid (oidStr str v).toList with
    | none => exact .inr ⟨_, rfl, _, _, rfl⟩
    | some n =>
      left
      have hn : n < 2 ^ 96 := by
        unfold parseOid at hp
        split at hp
        · rename_i hl
          have := (fromHex_text _ n hp).1
          rw [hl, pow_oid] at this
          exact this
        · cases hp
      exact ⟨n, hn, rfl, self n hn⟩

/-! ## The hypotheses are met -/

example : (objectIdType (fun _ => "")).toNative .none (.str "507F1f77bcf86cd799439011") = .ok (.obj 0x507f1f77bcf86cd799439011) := rfl
example : (objectIdType (fun _ => "")).toPrimitive .none (.obj 0x507f1f77bcf86cd799439011) = .ok (.str "507f1f77bcf86cd799439011") := rfl
example : (objectIdType (fun _ => "")).toNative .none (.str "507f1f77bcf86cd79943901") = convErr "convert" := rfl
example : (objectIdType (fun _ => "12")).toNative .none (.int 12) = convErr "convert" := rfl

end Verif.Types
