import Verif.Py.Match
import Verif.Types.Web
import Verif.Props.Net

/-!
# C78, C79: mail addresses and URLs
-/
namespace Verif.Types
open Verif.Py
open Verif.Py.Re (chr opt rep upTo range plus)

/-! ## C78: mail addresses -/

/-- A dot-atom: non-empty runs of atom characters separated by dots. -/
def IsDotAtom (w : List Char) : Prop := ∃ as, as ≠ [] ∧ (∀ a ∈ as, a ≠ [] ∧ ∀ c ∈ a, isAtext c = true) ∧ w = joinSep '.' as

/-- One element of a quoted local part: a plain character or a backslash followed by any visible or blank character. -/
def IsQuotedItem (p : List Char) : Prop := (∃ c, isQtext c = true ∧ p = [c]) ∨ ∃ c, isVchar c = true ∧ p = ['\\', c]

/-- A quoted local part. -/
def IsQuoted (w : List Char) : Prop := ∃ ps : List (List Char), (∀ p ∈ ps, IsQuotedItem p) ∧ w = '"' :: ps.flatten ++ ['"']

/-- A domain label: 1 to 63 letters, digits and hyphens, with no hyphen at either end. -/
def IsLabel (l : List Char) : Prop :=
  1 ≤ l.length ∧ l.length ≤ 63 ∧ (∀ c ∈ l, isLdh c = true) ∧ l.head? ≠ some '-' ∧ l.getLast? ≠ some '-'

/-- A domain: at least one label and a top-level domain of 2 to 63 letters, separated by dots. -/
def IsDomain (d : List Char) : Prop :=
  ∃ ls tld, ls ≠ [] ∧ (∀ l ∈ ls, IsLabel l) ∧ 2 ≤ tld.length ∧ tld.length ≤ 63 ∧ (∀ c ∈ tld, isLetterI c = true) ∧
    d = joinSep '.' (ls ++ [tld])

/-- A mail address. -/
def IsEmail (w : List Char) : Prop := ∃ l d, (IsDotAtom l ∨ IsQuoted l) ∧ IsDomain d ∧ w = l ++ '@' :: d

theorem joinSep_eq (sep : Char) : ∀ (as : List (List Char)) (a : List Char), joinSep sep (a :: as) = a ++ (as.map fun b => sep :: b).flatten := by
  intro as
  induction as with
  | nil => intro a; simp [joinSep]
  | cons b as ih => intro a; rw [joinSep, ih b]; simp; simp

theorem joinSep_dots : ∀ (ls : List (List Char)) (t : List Char), joinSep '.' (ls ++ [t]) = (ls.map (· ++ ['.'])).flatten ++ t := by
  intro ls
  induction ls with
  | nil => intro t; simp [joinSep]
  | cons l ls ih =>
    intro t
    have : ∃ a as, ls ++ [t] = a :: as := by cases ls <;> simp
    obtain ⟨a, as, h⟩ := this
    rw [List.cons_append, h, joinSep, ← h, ih]
    · simp
    · simp

theorem dotAtom_iff (w : List Char) : dotAtom.L w ↔ IsDotAtom w := by
  have e : dotAtom.L w ↔ ∃ u v, (plus (.cls isAtext)).L u ∧ (Re.star (.seq (chr '.') (plus (.cls isAtext)))).L v ∧ w = u ++ v := Iff.rfl
  rw [e]
  have e2 : ∀ x, (Re.seq (chr '.') (plus (.cls isAtext))).L x ↔ ∃ a, (a ≠ [] ∧ ∀ c ∈ a, isAtext c = true) ∧ x = '.' :: a := by
    intro x
    rw [Re.L]
    constructor
    · rintro ⟨u, v, hu, hv, rfl⟩
      rw [Re.L_chr] at hu; subst hu
      exact ⟨v, (Re.L_plus_cls _ _).1 hv, rfl⟩
    · rintro ⟨a, ha, rfl⟩
      exact ⟨['.'], a, (Re.L_chr _ _).2 rfl, (Re.L_plus_cls _ _).2 ha, rfl⟩
  constructor
  · rintro ⟨u, v, hu, ⟨ws, hws, rfl⟩, rfl⟩
    rw [Re.L_plus_cls] at hu
    have : ∃ as : List (List Char), (∀ a ∈ as, a ≠ [] ∧ ∀ c ∈ a, isAtext c = true) ∧ ws = as.map fun b => '.' :: b := by
      clear hu e
      induction ws with
      | nil => exact ⟨[], by simp, rfl⟩
      | cons x ws ih =>
        obtain ⟨as, h1, h2⟩ := ih fun y hy => hws y (by simp [hy])
        obtain ⟨a, ha, rfl⟩ := (e2 x).1 (hws x (by simp))
        refine ⟨a :: as, ?_, by simp [h2]⟩
        intro b hb
        rcases List.mem_cons.1 hb with rfl | hb
        · exact ha
        · exact h1 b hb
    obtain ⟨as, h1, rfl⟩ := this
    refine ⟨u :: as, by simp, ?_, (joinSep_eq _ _ _).symm⟩
    intro b hb
    rcases List.mem_cons.1 hb with rfl | hb
    · exact hu
    · exact h1 b hb
  · rintro ⟨as, hne, has, rfl⟩
    cases as with
    | nil => exact absurd rfl hne
    | cons a as =>
      refine ⟨a, _, (Re.L_plus_cls _ _).2 (has a (by simp)), ⟨as.map fun b => '.' :: b, ?_, rfl⟩, joinSep_eq _ _ _⟩
      intro x hx
      obtain ⟨b, hb, rfl⟩ := List.mem_map.1 hx
      exact (e2 _).2 ⟨b, has b (by simp [hb]), rfl⟩

theorem quoted_iff (w : List Char) : quotedLocal.L w ↔ IsQuoted w := by
  have e2 : ∀ x, (Re.alt (.cls isQtext) (.seq (chr '\\') (.cls isVchar))).L x ↔ IsQuotedItem x := by
    intro x
    simp only [Re.L, Re.L_chr, IsQuotedItem]
    constructor
    · rintro (h | ⟨u, v, rfl, ⟨c, hc, rfl⟩, rfl⟩)
      · exact Or.inl h
      · exact Or.inr ⟨c, hc, rfl⟩
    · rintro (h | ⟨c, hc, rfl⟩)
      · exact Or.inl h
      · exact Or.inr ⟨_, _, rfl, ⟨c, hc, rfl⟩, rfl⟩
  have e : quotedLocal.L w ↔ ∃ u v, (chr '"').L u ∧ (∃ u' v', (Re.star (.alt (.cls isQtext) (.seq (chr '\\') (.cls isVchar)))).L u' ∧ (chr '"').L v' ∧ v = u' ++ v') ∧ w = u ++ v := Iff.rfl
  rw [e]
  constructor
  · rintro ⟨u, v, hu, ⟨u', v', ⟨ws, hws, rfl⟩, hv, rfl⟩, rfl⟩
    rw [Re.L_chr] at hu hv
    subst hu hv
    exact ⟨ws, fun p hp => (e2 p).1 (hws p hp), rfl⟩
  · rintro ⟨ps, hps, rfl⟩
    exact ⟨['"'], _, (Re.L_chr _ _).2 rfl, ⟨ps.flatten, ['"'], ⟨ps, fun p hp => (e2 p).2 (hps p hp), rfl⟩, (Re.L_chr _ _).2 rfl, rfl⟩, rfl⟩

theorem labelDot_means : labelDot.Means fun w => ∃ l, IsLabel l ∧ w = l ++ ['.'] := by
  intro x y
  have hr := Re.means_pure (range 1 63 (.cls isLdh)) rfl
  have hd := Re.means_pure (chr '.') rfl
  simp only [labelDot, Re.run, List.mem_flatMap, hr _ _, hd _ _, St.guard, Re.L_chr, Re.L_range_cls _ _ _ (show 1 ≤ 63 by omega)]
  constructor
  · rintro ⟨x1, h1, z, ⟨l, ⟨hl1, hl2, hl3⟩, hz⟩, z1, h2, w, rfl, hy⟩
    split at h1
    · rename_i ha
      simp only [List.mem_singleton] at h1; subst h1
      split at h2
      · rename_i hb
        simp only [List.mem_singleton] at h2; subst h2
        refine ⟨l ++ ['.'], ⟨l, ⟨hl1, hl2, hl3, ?_, ?_⟩, rfl⟩, hz.trans hy⟩
        · intro hh
          cases l with
          | nil => cases hh
          | cons c l =>
            simp only [List.head?_cons, Option.some.injEq] at hh
            subst hh
            rw [St.ahead, hz.1] at ha
            simp [isHyphen] at ha
        · intro hh
          obtain ⟨l', rfl⟩ := List.getLast?_eq_some_iff.1 hh
          rw [St.behind, hz.2.1] at hb
          simp [isHyphen] at hb
      · cases h2
    · cases h1
  · rintro ⟨w, ⟨l, ⟨hl1, hl2, hl3, hh, ht⟩, rfl⟩, h⟩
    obtain ⟨z, hz, hy⟩ := h.next
    have ha : x.ahead isHyphen = false := by
      rw [St.ahead, hz.1]
      cases l with
      | nil => simp at hl1
      | cons c l => simpa [isHyphen] using hh
    have hb : z.behind isHyphen = false := by
      rw [St.behind, hz.2.1]
      cases hg : l.getLast? with
      | none => rw [List.getLast?_eq_none_iff] at hg; subst hg; simp at hl1
      | some c =>
        obtain ⟨l', rfl⟩ := List.getLast?_eq_some_iff.1 hg
        rw [hg] at ht
        simpa [isHyphen] using ht
    exact ⟨x, by simp [ha], z, ⟨l, ⟨hl1, hl2, hl3⟩, hz⟩, z, by simp [hb], ['.'], rfl, hy⟩

theorem email_means : emailBody.Means IsEmail := by
  have h1 : (Re.alt dotAtom quotedLocal).Means fun w => IsDotAtom w ∨ IsQuoted w :=
    ((Re.means_pure dotAtom rfl).congr dotAtom_iff).alt ((Re.means_pure quotedLocal rfl).congr quoted_iff)
  have h2 : (chr '@').Means fun w => w = ['@'] := (Re.means_pure _ rfl).congr (Re.L_chr _)
  have h3 : (range 2 63 (.cls isLetterI)).Means _ := (Re.means_pure _ rfl).congr (Re.L_range_cls _ _ _ (by omega))
  refine (h1.seq (h2.seq (labelDot_means.plus.seq h3))).congr fun w => ?_
  have conv : ∀ ws : List (List Char), (∀ x ∈ ws, ∃ l, IsLabel l ∧ x = l ++ ['.']) → ∃ ls : List (List Char), (∀ l ∈ ls, IsLabel l) ∧ ws = ls.map (· ++ ['.']) := by
    intro ws
    induction ws with
    | nil => intro _; exact ⟨[], by simp, rfl⟩
    | cons x ws ih =>
      intro h
      obtain ⟨ls, h1, h2⟩ := ih fun y hy => h y (by simp [hy])
      obtain ⟨l, hl, rfl⟩ := h x (by simp)
      refine ⟨l :: ls, ?_, by simp [h2]⟩
      intro b hb
      rcases List.mem_cons.1 hb with rfl | hb
      · exact hl
      · exact h1 b hb
  constructor
  · rintro ⟨l, v, hl, ⟨a, b, rfl, ⟨p, t, ⟨ws, hne, hws, rfl⟩, ⟨ht1, ht2, ht3⟩, rfl⟩, rfl⟩, rfl⟩
    obtain ⟨ls, hls, rfl⟩ := conv ws hws
    refine ⟨l, _, hl, ⟨ls, t, by simpa using hne, hls, ht1, ht2, ht3, (joinSep_dots ls t).symm⟩, rfl⟩
  · rintro ⟨l, d, hl, ⟨ls, t, hne, hls, ht1, ht2, ht3, rfl⟩, rfl⟩
    refine ⟨l, _, hl, ⟨['@'], _, rfl, ⟨(ls.map (· ++ ['.'])).flatten, t, ⟨ls.map (· ++ ['.']), by simpa using hne, ?_, rfl⟩, ⟨ht1, ht2, ht3⟩, rfl⟩, rfl⟩, ?_⟩
    · intro x hx
      obtain ⟨b, hb, rfl⟩ := List.mem_map.1 hx
      exact ⟨b, hls b hb, rfl⟩
    · rw [joinSep_dots]; rfl

theorem passes_email (app : Val) (s : String) : Passes (emailType) app s ↔ emailRegex.test s.toList = true := by
  simp only [Passes, emailType, List.mem_cons, List.not_mem_nil, or_false, forall_eq_or_imp, forall_eq, validateLength, validateRegex, validateEmail,
    tooLong, tooShort]
  constructor
  · rintro ⟨-, -, h⟩
    cases h' : emailRegex.test s.toList with
    | true => rfl
    | false => rw [h'] at h; cases h
  · intro h
    simp [h]

/-- **C78.**  `EmailType` accepts a text iff it is a mail address - a dot-atom or quoted local part, `@`, and a domain -, or one followed by a
newline. -/
theorem C78_email_exact (app : Val) (s : String) : Passes (emailType) app s ↔ Full IsEmail s.toList := by
  rw [passes_email, emailRegex, email_means.anchored]

/-- **C78, refusal**: any other text is refused with `StopValidationError`, so that no later validator of the field runs. -/
theorem C78_email_refused (app : Val) (s : String) (h : ¬ Full IsEmail s.toList) : validateEmail app (.str s) = .error (.field .stop ["email"]) := by
  have : emailRegex.test s.toList = false := by
    rw [← Bool.not_eq_true, emailRegex, email_means.anchored]; exact h
  simp [validateEmail, this, stopErr]

/-! ## The hypotheses are met -/

theorem sampleEmail : IsEmail "first.last@mail.example.com".toList := by
  refine ⟨"first.last".toList, "mail.example.com".toList, Or.inl ⟨["first".toList, "last".toList], by simp, by decide, by decide⟩,
    ⟨["mail".toList, "example".toList], "com".toList, by simp, ?_, by decide, by decide, by decide, by decide⟩, by decide⟩
  unfold IsLabel; decide

theorem sampleQuoted : IsEmail "\"a \\\" b\"@example.com".toList := by
  refine ⟨"\"a \\\" b\"".toList, "example.com".toList, Or.inr ⟨["a".toList, " ".toList, "\\\"".toList, " ".toList, "b".toList], ?_, by decide⟩,
    ⟨["example".toList], "com".toList, by simp, ?_, by decide, by decide, by decide, by decide⟩, by decide⟩
  · intro p hp
    simp only [List.mem_cons, List.not_mem_nil, or_false] at hp
    rcases hp with rfl | rfl | rfl | rfl | rfl
    · exact Or.inl ⟨'a', by decide, by decide⟩
    · exact Or.inl ⟨' ', by decide, by decide⟩
    · exact Or.inr ⟨'"', by decide, by decide⟩
    · exact Or.inl ⟨' ', by decide, by decide⟩
    · exact Or.inl ⟨'b', by decide, by decide⟩
  · unfold IsLabel; decide

example (app : Val) : Passes (emailType) app "first.last@mail.example.com" := (C78_email_exact app _).2 (Or.inl sampleEmail)

example : ¬ Full IsEmail "first.last@example".toList := by
  rw [← email_means.anchored]; decide +kernel

/-- Boundary cases: a top-level domain of one letter or with a digit, a label that ends with a hyphen, a doubled dot and an unquoted blank are refused;
a final newline and the Kelvin sign (as a letter) are accepted. -/
theorem C78_examples :
    emailRegex.test "a@b.c".toList = false ∧ emailRegex.test "a@b.c1".toList = false ∧ emailRegex.test "a@b-.com".toList = false ∧
    emailRegex.test "a..b@c.com".toList = false ∧ emailRegex.test "a b@c.com".toList = false ∧ emailRegex.test "a@b.com\n".toList = true ∧
    emailRegex.test "a@b.co\u212A".toList = true ∧ emailRegex.test "a@b.com\n\n".toList = false := by
  decide +kernel

end Verif.Types
