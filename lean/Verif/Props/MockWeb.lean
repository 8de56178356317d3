import Verif.Props.Mock
import Verif.Props.Url

/-! # C73: mocks of mail addresses and URLs -/
namespace Verif.Types.Mock
open Verif.Py Verif.Types

theorem alnum_letter_or_digit : ∀ c ∈ alphanumeric, (isLetterI c = true ∨ isDigitC c = true) ∧ isAtext c = true ∧ isLdh c = true ∧ c ≠ '-' ∧ c ≠ '.' ∧
    c.toNat < 128 ∧ chrcls ".-".toList c = true ∧ c ∉ ":/?#[]@\n".toList := by decide +kernel

theorem email_isEmail {w : List Char} (hw : w ≠ []) (ha : ∀ c ∈ w, c ∈ alphanumeric) : IsEmail (w ++ "@example.com".toList) := by
  refine ⟨w, "example.com".toList, Or.inl ⟨[w], by simp, ?_, by simp [joinSep]⟩, ?_, rfl⟩
  · intro a haw
    simp only [List.mem_singleton] at haw
    subst haw
    exact ⟨hw, fun c hc => (alnum_letter_or_digit c (ha c hc)).2.1⟩
  · refine ⟨["example".toList], "com".toList, by simp, ?_, by decide, by decide, by decide, by decide⟩
    intro l hl
    simp only [List.mem_singleton] at hl
    subst hl
    unfold IsLabel
    decide

/-- **C73, mail addresses**: for every random outcome a mocked mail address is accepted by its own field. -/
theorem C73_email (max min : Option Nat) (r : Tape) (v : Val) (h : email max min r = some v) :
    Accepted (emailType none max min) v := by
  obtain ⟨w, hw, ha, rfl, hacc⟩ := (C73_template [] "@example.com".toList (by decide) max min r).1 v h
  intro app
  obtain ⟨h1, h2⟩ := hacc app
  refine ⟨h1, ?_⟩
  intro g hg
  simp only [emailType, List.mem_cons, List.not_mem_nil, or_false] at hg
  rcases hg with rfl | rfl | rfl
  · exact h2 _ (by simp [stringType])
  · exact h2 _ (by simp [stringType])
  · have hp := (C78_email_exact app (String.ofList ([] ++ w ++ "@example.com".toList))).2
      (Or.inl (by simpa using email_isEmail hw ha))
    exact hp _ (by simp [emailType])

theorem dotfree_split {a b : List Char} {ls : List (List Char)} (ha : '.' ∉ a) (hb : '.' ∉ b) (hls : ∀ l ∈ ls, '.' ∉ l) (hne : ls ≠ [])
    (h : joinSep '.' ls = a ++ '.' :: b) : ls = [a, b] := by
  have key : ∀ (x y x' y' : List Char), '.' ∉ x → '.' ∉ x' → x ++ '.' :: y = x' ++ '.' :: y' → x = x' ∧ y = y' := by
    intro x
    induction x with
    | nil =>
      intro y x' y' _ hx' h
      cases x' with
      | nil => injection h with _ h; exact ⟨rfl, h⟩
      | cons c x' => injection h with h _; subst h; simp at hx'
    | cons c x ih =>
      intro y x' y' hx hx' h
      cases x' with
      | nil => injection h with h _; subst h; simp at hx
      | cons d x' =>
        injection h with h1 h2
        subst h1
        obtain ⟨rfl, rfl⟩ := ih y x' y' (fun e => hx (by simp [e])) (fun e => hx' (by simp [e])) h2
        exact ⟨rfl, rfl⟩
  cases ls with
  | nil => exact absurd rfl hne
  | cons l ls =>
    rw [joinSep_eq] at h
    cases ls with
    | nil =>
      exfalso
      simp only [List.map_nil, List.flatten_nil, List.append_nil] at h
      exact hls l (by simp) (by rw [h]; simp)
    | cons m ms =>
      simp only [List.map_cons, List.flatten_cons, List.cons_append] at h
      obtain ⟨rfl, h2⟩ := key _ _ _ _ (hls l (by simp)) ha h
      cases ms with
      | nil => simp at h2; rw [h2]
      | cons n ns =>
        exfalso
        apply hb
        rw [← h2]
        simp

/-- The mocked URL with random part `w` is a URL iff the label of its host is short enough. -/
theorem url_isUrl (idna : List Char → Option (List Char)) (fqdn : Bool) {w : List Char} (ha : ∀ c ∈ w, c ∈ alphanumeric) :
    IsUrl idna fqdn ("http://a".toList ++ w ++ ".ZZ".toList) ↔ w.length ≤ 62 := by
  have hA : ∀ c ∈ 'a' :: w, c ∈ alphanumeric := by
    intro c hc
    rcases List.mem_cons.1 hc with rfl | hc
    · decide
    · exact ha c hc
  have hchars : ∀ c ∈ 'a' :: w ++ ".ZZ".toList, c ∈ alphanumeric ∨ c = '.' := by
    intro c hc
    rcases List.mem_append.1 hc with hc | hc
    · exact Or.inl (hA c hc)
    · clear hA ha
      have : ∀ c ∈ ".ZZ".toList, c ∈ alphanumeric ∨ c = '.' := by decide
      exact this c hc
  have hnodot : '.' ∉ 'a' :: w := fun h => (alnum_letter_or_digit _ (hA _ h)).2.2.2.2.1 rfl
  constructor
  · rintro ⟨s, u, h, p, t, hs, hu, hh, hp, ht, he⟩
    have hs' : s.length = 4 ∨ s.length = 5 := by
      rcases hs with hs | hs
      · left; have := congrArg List.length hs; simpa using this
      · right; have := congrArg List.length hs; simpa using this
    have he' : "http".toList ++ ("://".toList ++ ('a' :: w ++ ".ZZ".toList)) = s ++ ("://".toList ++ (u ++ (h ++ (p ++ t)))) := by
      rw [← he]; simp
    have hsplit : u ++ (h ++ (p ++ t)) = 'a' :: w ++ ".ZZ".toList := by
      rcases hs' with h4 | h5
      · obtain ⟨_, h2⟩ := List.append_inj he' (by simpa using h4.symm)
        exact (List.append_inj h2 (by simp)).2.symm
      · exfalso
        rcases s with _ | ⟨a, _ | ⟨b, _ | ⟨c, _ | ⟨d, _ | ⟨e, s⟩⟩⟩⟩⟩ <;> simp at h5
        subst h5
        simp only [List.cons_append, List.nil_append] at he'
        have := congrArg (fun l => l[5]?) he'
        simp at this
    have hmem : ∀ c ∈ u ++ (h ++ (p ++ t)), c ∉ ":/?#[]@\n".toList := by
      intro c hc
      rw [hsplit] at hc
      rcases hchars c hc with hc | rfl
      · exact (alnum_letter_or_digit c hc).2.2.2.2.2.2.2
      · decide
    have hu0 : u = [] := by
      rcases hu with rfl | ⟨n, _, _, rfl⟩
      · rfl
      · exact absurd (by decide) (hmem '@' (by simp))
    have hp0 : p = [] := by
      rcases hp with rfl | ⟨d, _, _, _, rfl⟩
      · rfl
      · exact absurd (by decide) (hmem ':' (by simp))
    have ht0 : t = [] := by
      obtain ⟨pa, qu, fr, h1, h2, h3, rfl⟩ := ht
      have e1 : pa = [] := by
        rcases h1 with rfl | ⟨d, _, rfl⟩
        · rfl
        · exact absurd (by decide) (hmem '/' (by simp))
      have e2 : qu = [] := by
        rcases h2 with rfl | ⟨d, _, rfl⟩
        · rfl
        · exact absurd (by decide) (hmem '?' (by simp))
      have e3 : fr = [] := by
        rcases h3 with rfl | ⟨d, _, rfl⟩
        · rfl
        · exact absurd (by decide) (hmem '#' (by simp))
      rw [e1, e2, e3]; rfl
    subst hu0 hp0 ht0
    simp only [List.nil_append, List.append_nil] at hsplit hmem
    have hhead : h.head? = some 'a' := by rw [hsplit]; rfl
    have hlast : h.getLast? = some 'Z' := by
      rw [hsplit, show 'a' :: w ++ ".ZZ".toList = ('a' :: w ++ ['.', 'Z']) ++ ['Z'] by simp]
      exact List.getLast?_concat
    rcases hh with ⟨a, _, _, rfl⟩ | h4 | ⟨_, _, a, hasc, hn⟩
    · simp at hhead
    · exfalso
      obtain ⟨a, b, c, d, ⟨h1, _, h3, _⟩, _, _, _, rfl⟩ := h4
      cases a with
      | nil => simp at h1
      | cons x a =>
        simp only [List.cons_append, List.head?_cons, Option.some.injEq] at hhead
        have := h3 x (by simp)
        rw [hhead] at this
        revert this; decide
    · have hlow : ∀ c ∈ h, c.toNat < 128 := by
        intro c hc
        rw [hsplit] at hc
        rcases hchars c hc with hc | rfl
        · exact (alnum_letter_or_digit c hc).2.2.2.2.2.1
        · decide
      have hah : a = h := by
        rcases hasc with ⟨_, rfl⟩ | ⟨⟨c, hc, h128⟩, _⟩
        · rfl
        · exact absurd (hlow c hc) (by omega)
      subst hah
      obtain ⟨ls, hne, hls, _, hj, _⟩ := hn
      have hj' : joinSep '.' ls = 'a' :: w ++ '.' :: "ZZ".toList := by
        rcases hj with hj | hj
        · rw [← hj, hsplit]; rfl
        · rw [hj] at hlast; simp at hlast
      have := dotfree_split hnodot (by decide) (fun l hl => (hls l hl).2.2.1) hne hj'
      have h63 := (hls ('a' :: w) (by rw [this]; simp)).2.1
      simp at h63; omega
  · intro hlen
    refine ⟨"http".toList, [], 'a' :: w ++ ".ZZ".toList, [], [], Or.inl (by unfold Spells; decide), Or.inl rfl, ?_, Or.inl rfl,
      ⟨[], [], [], Or.inl rfl, Or.inl rfl, Or.inl rfl, rfl⟩, by simp⟩
    refine Or.inr (Or.inr ⟨by simp, ?_, 'a' :: w ++ ".ZZ".toList, Or.inl ⟨?_, rfl⟩, ?_⟩)
    · intro c hc
      rw [← host_iff]
      rcases hchars c hc with hc | rfl
      · exact (alnum_letter_or_digit c hc).2.2.2.2.2.2.1
      · decide
    · intro c hc
      rcases hchars c hc with hc | rfl
      · exact (alnum_letter_or_digit c hc).2.2.2.2.2.1
      · decide
    · refine ⟨['a' :: w, "ZZ".toList], by simp, ?_, ?_, Or.inl (by simp [joinSep]), ?_⟩
      · intro l hl
        simp only [List.mem_cons, List.not_mem_nil, or_false] at hl
        rcases hl with rfl | rfl
        · refine ⟨by simp, by simp; omega, hnodot, by simp, ?_⟩
          intro hl
          have := List.mem_of_getLast? hl
          exact (alnum_letter_or_digit _ (hA _ this)).2.2.2.1 rfl
        · unfold IsHostLabel; decide
      · simp [joinSep]; omega
      · intro _
        exact ⟨by simp, "ZZ".toList, by simp, Or.inl ⟨by decide, by decide⟩⟩

/-- **C73, URLs**: a mocked URL is accepted by its own field (with any setting of `fqdn`) exactly when it has at most 73 characters, because its random part is
one label of the host name. -/
theorem C73_url (idna : List Char → Option (List Char)) (hidna : ∀ h a, idna h = some a → '\n' ∉ a) (fqdn : Bool) (max min : Option Nat) (r : Tape)
    (v : Val) (h : url max min r = some v) :
    ∃ s, v = .str s ∧ (Accepted (urlType idna fqdn none max min) v ↔ s.length ≤ 73) := by
  obtain ⟨w, hw, ha, rfl, hacc⟩ := (C73_template "http://a".toList ".ZZ".toList (by decide) max min r).1 v h
  refine ⟨_, rfl, ?_⟩
  have hlen : (String.ofList ("http://a".toList ++ w ++ ".ZZ".toList)).length = w.length + 11 := by
    rw [String.length_ofList, List.length_append, List.length_append, show "http://a".toList.length = 8 from rfl, show ".ZZ".toList.length = 3 from rfl]; omega
  have hfull : Full (IsUrl idna fqdn) (String.ofList ("http://a".toList ++ w ++ ".ZZ".toList)).toList ↔ w.length ≤ 62 := by
    rw [String.toList_ofList]
    constructor
    · rintro (h | ⟨x, _, hx⟩)
      · exact (url_isUrl idna fqdn ha).1 h
      · exfalso
        have := congrArg List.getLast? hx
        rw [show "http://a".toList ++ w ++ ".ZZ".toList = ("http://a".toList ++ w ++ ['.', 'Z']) ++ ['Z'] by simp, List.getLast?_concat,
          List.getLast?_concat] at this
        cases this
    · intro h; exact Or.inl ((url_isUrl idna fqdn ha).2 h)
  have key : ∀ app, Passes (urlType idna fqdn) app (String.ofList ("http://a".toList ++ w ++ ".ZZ".toList)) ↔ w.length ≤ 62 := by
    intro app; rw [C79_url_exact idna hidna, hfull]
  rw [hlen]
  constructor
  · intro hA
    have := (key .none).1 (by
      intro g hg
      simp only [urlType, List.mem_cons, List.not_mem_nil, or_false] at hg
      rcases hg with rfl | rfl | rfl
      · rfl
      · exact (hA .none).2 _ (by simp [urlType])
      · exact (hA .none).2 _ (by simp [urlType]))
    omega
  · intro hl app
    obtain ⟨h1, h2⟩ := hacc app
    refine ⟨h1, ?_⟩
    intro g hg
    simp only [urlType, List.mem_cons, List.not_mem_nil, or_false] at hg
    rcases hg with rfl | rfl | rfl
    · exact h2 _ (by simp [stringType])
    · exact h2 _ (by simp [stringType])
    · exact (key app).2 (by omega) _ (by simp [urlType])

theorem endpoints_some {min max : Option Int} {pad req : Int} {p : Int × Int} (hp : pad ≠ 0) (he : endpoints min max pad req = some p) :
    p.1 ≤ p.2 ∧ p.2 = max.getD (Max.max (min.getD 0 * 2) 16) - pad := by
  unfold endpoints at he
  simp only [ne_eq, hp, not_false_eq_true, if_true] at he
  split at he
  · cases he
  · split at he
    · cases he
    · rename_i h1 h2
      cases he
      exact ⟨by simp only; omega, rfl⟩

/-- **C73, URLs with ordinary bounds**: the mock is always accepted if the field's bounds do not ask for more than 73 characters. -/
theorem C73_url_bounded (idna : List Char → Option (List Char)) (hidna : ∀ h a, idna h = some a → '\n' ∉ a) (fqdn : Bool) (max min : Option Nat) (r : Tape)
    (v : Val) (h : url max min r = some v) (hb : (∃ b, max = some b ∧ b ≤ 73) ∨ (max = none ∧ ∀ a, min = some a → a ≤ 36)) :
    Accepted (urlType idna fqdn none max min) v := by
  obtain ⟨s, rfl, hiff⟩ := C73_url idna hidna fqdn max min r v h
  rw [hiff]
  have hr := C73_range (lift min) (lift max) 11 1 (by omega)
  unfold url template at h
  cases hn : valueIn (lift min) (lift max) (("http://a".toList.length + ".ZZ".toList.length : Nat) : Int) 1 (r 0) with
  | none => rw [hn] at h; cases h
  | some n =>
    rw [hn] at h
    simp only [Option.map_some, Option.some.injEq, Val.str.injEq] at h
    have hl : s.length = n.toNat + 11 := by 
      rw [← h, String.length_ofList, List.length_append, List.length_append, show "http://a".toList.length = 8 from rfl,
        show ".ZZ".toList.length = 3 from rfl, randomString_length]
      omega
    rw [hl]
    have hpad : (("http://a".toList.length + ".ZZ".toList.length : Nat) : Int) = 11 := by decide
    rw [hpad] at hn
    unfold valueIn at hn
    cases he : endpoints (lift min) (lift max) 11 1 with
    | none => rw [he] at hn; cases hn
    | some p =>
      rw [he] at hn
      simp only [Option.map_some, Option.some.injEq] at hn
      have hle : p.1 ≤ p.2 ∧ p.2 = (lift max).getD (Max.max ((lift min).getD 0 * 2) 16) - 11 := by
        exact endpoints_some (by omega) he
      have hm := (randint_mem hle.1 (r 0)).2
      rw [hn, hle.2] at hm
      rcases hb with ⟨b, rfl, hb⟩ | ⟨rfl, ha⟩
      · simp [lift] at hm
        omega
      · cases min with
        | none => simp [lift] at hm; omega
        | some a => have := ha a rfl; simp [lift] at *; omega

/-! ## The hypotheses are met -/

/-- The address and the URL mocked by the tape that answers 5 everywhere. -/
example : email none none (fun _ => 5) = some (.str "ff@example.com") := rfl
example : url (some 20) none (fun _ => 5) = some (.str "http://affffff.ZZ") := rfl
example : ∃ v, email none none (fun _ => 5) = some v ∧ Accepted (emailType none none none) v := by
  refine ⟨.str "ff@example.com", rfl, ?_⟩
  exact C73_email none none (fun _ => 5) _ rfl

/-- A URL field whose values need at least 80 characters has only mocks that the field itself refuses. -/
theorem C73_counterexample_long_url (idna : List Char → Option (List Char)) (hidna : ∀ h a, idna h = some a → '\n' ∉ a) (fqdn : Bool) (r : Tape) :
    ∃ v, url none (some 80) r = some v ∧ ¬ Accepted (urlType idna fqdn none none (some 80)) v := by
  cases h : url none (some 80) r with
  | none =>
    exfalso
    obtain ⟨b, hb, _⟩ := (C73_template "http://a".toList ".ZZ".toList (by decide) none (some 80) r).2.1 h
    cases hb
  | some v =>
    refine ⟨v, rfl, fun hA => ?_⟩
    obtain ⟨s, rfl, hiff⟩ := C73_url idna hidna fqdn none (some 80) r v h
    have h1 := hiff.1 hA
    have h2 := (hA .none).2 (validateLength none (some 80)) (by simp [urlType])
    simp only [validateLength, tooLong, tooShort, Bool.false_eq_true, if_false, decide_eq_true_eq] at h2
    split at h2
    · cases h2
    · omega

end Verif.Types.Mock
