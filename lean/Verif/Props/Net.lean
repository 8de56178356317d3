import Verif.Types.Net

/-!
# C58-C61: network addresses
-/
namespace Verif.Types
open Verif.Py
open Verif.Py.Re (chr opt rep upTo range plus)

/-- A text passes all validators of a field. -/
def Passes (f : Leaf) (app : Val) (s : String) : Prop := ∀ v ∈ f.validators, v app (.str s) = .ok ()

theorem passes_pattern (msg : Msg) (r : Re) (app : Val) (s : String) :
    Passes (patternType msg r none none none) app s ↔ r.test s.toList = true := by
  simp only [Passes, patternType, List.mem_cons, List.not_mem_nil, or_false, forall_eq_or_imp, forall_eq, validateLength, validateRegex, validateRe,
    tooLong, tooShort]
  constructor
  · rintro ⟨-, -, h⟩
    cases h' : r.test s.toList with
    | true => rfl
    | false => rw [h'] at h; cases h
  · intro h
    simp [h]

/-! ## C58: IPv4 -/

/-- An octet: one to three decimal digits with a value of at most 255. -/
def IsOctet (w : List Char) : Prop :=
  1 ≤ w.length ∧ w.length ≤ 3 ∧ (∀ c ∈ w, isAsciiDigit c = true) ∧ ofDigits 10 0 (w.map fun c => c.toNat - 48) ≤ 255

/-- Four octets separated by dots. -/
def IsIPv4 (w : List Char) : Prop :=
  ∃ a b c d, IsOctet a ∧ IsOctet b ∧ IsOctet c ∧ IsOctet d ∧ w = a ++ '.' :: b ++ '.' :: c ++ '.' :: d

theorem L_between (a b : Char) (w : List Char) : (between a b).L w ↔ ∃ c, (a.toNat ≤ c.toNat ∧ c.toNat ≤ b.toNat) ∧ w = [c] := by
  simp [between, Re.L]

theorem octet_iff (w : List Char) : ipv4Octet.L w ↔ IsOctet w := by
  have n0 : ('0' : Char).toNat = 48 := rfl
  have n1 : ('1' : Char).toNat = 49 := rfl
  have n2 : ('2' : Char).toNat = 50 := rfl
  have n4 : ('4' : Char).toNat = 52 := rfl
  have n5 : ('5' : Char).toNat = 53 := rfl
  have n9 : ('9' : Char).toNat = 57 := rfl
  have hr : ∀ v, (range 1 2 (between '0' '9')).L v ↔ 1 ≤ v.length ∧ v.length ≤ 2 ∧ ∀ c ∈ v, isAsciiDigit c = true := by
    intro v
    rw [between, Re.L_range_cls _ _ _ (by decide)]
    simp only [n0, n9, isAsciiDigit]
  simp only [ipv4Octet, Re.L, Re.L_chr, Re.L_opt, L_between, hr, n0, n1, n4, n5, n9]
  unfold IsOctet
  constructor
  · rintro (⟨u, v, rfl, ⟨u', v', rfl, ⟨c, hc, rfl⟩, rfl⟩, rfl⟩ | ⟨u, v, rfl, ⟨u', v', ⟨c, hc, rfl⟩, ⟨d, hd, rfl⟩, rfl⟩, rfl⟩ |
      ⟨u, v, hu, ⟨h1, h2, h3⟩, rfl⟩)
    · refine ⟨by simp, by simp, ?_, ?_⟩
      · intro x hx
        simp only [List.cons_append, List.nil_append, List.mem_cons, List.not_mem_nil, or_false] at hx
        rcases hx with rfl | rfl | rfl
        · decide
        · decide
        · simp [isAsciiDigit]; omega
      · simp [ofDigits, n2, n5]; omega
    · refine ⟨by simp, by simp, ?_, ?_⟩
      · intro x hx
        simp only [List.cons_append, List.nil_append, List.mem_cons, List.not_mem_nil, or_false] at hx
        rcases hx with rfl | rfl | rfl
        · decide
        · simp [isAsciiDigit]; omega
        · simp [isAsciiDigit]; omega
      · simp [ofDigits, n2]; omega
    · have hu' : u = [] ∨ ∃ c, (48 ≤ c.toNat ∧ c.toNat ≤ 49) ∧ u = [c] := by
        rcases hu with h | h
        · exact Or.inr h
        · exact Or.inl h
      have hdig : ∀ c ∈ v, 48 ≤ c.toNat ∧ c.toNat ≤ 57 := by
        intro c hc; simpa [isAsciiDigit] using h3 c hc
      rcases hu' with rfl | ⟨c, hc, rfl⟩
      · refine ⟨by simpa using h1, by simp; omega, by simpa using h3, ?_⟩
        match v, h1, h2, hdig with
        | [a], _, _, hd => have := hd a (by simp); simp [ofDigits]; omega
        | [a, b], _, _, hd => have := hd a (by simp); have := hd b (by simp); simp [ofDigits]; omega
      · refine ⟨by simp, by simp; omega, ?_, ?_⟩
        · intro x hx
          simp only [List.cons_append, List.nil_append, List.mem_cons] at hx
          rcases hx with rfl | hx
          · simp [isAsciiDigit]; omega
          · exact h3 x hx
        · match v, h1, h2, hdig with
          | [a], _, _, hd => have := hd a (by simp); simp [ofDigits]; omega
          | [a, b], _, _, hd => have := hd a (by simp); have := hd b (by simp); simp [ofDigits]; omega
  · rintro ⟨h1, h2, h3, h4⟩
    have hdig : ∀ c ∈ w, 48 ≤ c.toNat ∧ c.toNat ≤ 57 := by
      intro c hc; simpa [isAsciiDigit] using h3 c hc
    match w, h1, h2, h3, hdig, h4 with
    | [a], _, _, h3, _, _ => exact Or.inr (Or.inr ⟨[], [a], Or.inr rfl, ⟨by simp, by simp, h3⟩, rfl⟩)
    | [a, b], _, _, h3, _, _ => exact Or.inr (Or.inr ⟨[], [a, b], Or.inr rfl, ⟨by simp, by simp, h3⟩, rfl⟩)
    | [a, b, c], _, _, h3, hd, h4 =>
      have ha := hd a (by simp)
      have hb := hd b (by simp)
      have hc := hd c (by simp)
      simp [ofDigits] at h4
      by_cases h01 : a.toNat ≤ 49
      · refine Or.inr (Or.inr ⟨[a], [b, c], Or.inl ⟨a, ⟨ha.1, h01⟩, rfl⟩, ⟨by simp, by simp, fun x hx => h3 x ?_⟩, rfl⟩)
        simp only [List.mem_cons] at *; exact Or.inr hx
      · have ha2 : a = '2' := by
          have e : a.toNat = 50 := by omega
          apply Char.toNat_inj.1; rw [e]; rfl
        subst ha2
        by_cases h24 : b.toNat ≤ 52
        · exact Or.inr (Or.inl ⟨['2'], [b, c], rfl, ⟨[b], [c], ⟨b, ⟨hb.1, h24⟩, rfl⟩, ⟨c, hc, rfl⟩, rfl⟩, rfl⟩)
        · have hb5 : b = '5' := by
            have e : b.toNat = 53 := by rw [n2] at h4; omega
            apply Char.toNat_inj.1; rw [e]; rfl
          subst hb5
          refine Or.inl ⟨['2'], ['5', c], rfl, ⟨['5'], [c], rfl, ⟨c, ⟨hc.1, ?_⟩, rfl⟩, rfl⟩, rfl⟩
          rw [n2, n5] at h4; omega

theorem ipv4_iff (w : List Char) : ipv4.L w ↔ IsIPv4 w := by
  have hs : ∀ x, (Re.seq ipv4Octet (chr '.')).L x ↔ ∃ a, IsOctet a ∧ x = a ++ ['.'] := by
    intro x
    simp only [Re.L, Re.L_chr, octet_iff]
    constructor
    · rintro ⟨u, v, hu, rfl, rfl⟩; exact ⟨u, hu, rfl⟩
    · rintro ⟨a, ha, rfl⟩; exact ⟨a, ['.'], ha, rfl, rfl⟩
  rw [ipv4, Re.L]
  simp only [Re.L_rep, octet_iff]
  constructor
  · rintro ⟨u, d, ⟨ws, h1, h2, rfl⟩, hd, rfl⟩
    match ws, h1, h2 with
    | [x, y, z], _, h2 =>
      obtain ⟨a, ha, rfl⟩ := (hs x).1 (h2 x (by simp))
      obtain ⟨b, hb, rfl⟩ := (hs y).1 (h2 y (by simp))
      obtain ⟨c, hc, rfl⟩ := (hs z).1 (h2 z (by simp))
      exact ⟨a, b, c, d, ha, hb, hc, hd, by simp⟩
  · rintro ⟨a, b, c, d, ha, hb, hc, hd, rfl⟩
    refine ⟨_, d, ⟨[a ++ ['.'], b ++ ['.'], c ++ ['.']], rfl, ?_, rfl⟩, hd, by simp⟩
    intro x hx
    simp only [List.mem_cons, List.not_mem_nil, or_false] at hx
    rcases hx with rfl | rfl | rfl
    · exact (hs _).2 ⟨a, ha, rfl⟩
    · exact (hs _).2 ⟨b, hb, rfl⟩
    · exact (hs _).2 ⟨c, hc, rfl⟩

theorem pure_between (a b : Char) : (between a b).pure = true := rfl

theorem pure_ipv4 : ipv4.pure = true := by rfl
theorem pure_ipv6 : ipv6.pure = true := by rfl

/-- **C58.**  `IPv4Type` accepts a text iff it consists of four decimal octets of one to three digits, each at most 255, separated by dots; a
final newline is allowed. -/
theorem C58_ipv4_exact (app : Val) (s : String) : Passes (ipv4Type) app s ↔ Full IsIPv4 s.toList := by
  rw [ipv4Type, passes_pattern, ipv4Regex, Re.anchored_iff _ pure_ipv4]
  simp only [Full, ipv4_iff]

/-! ## C59: IPv6 -/

/-- A group: one to four hexadecimal digits. -/
def IsGroup (w : List Char) : Prop := 1 ≤ w.length ∧ w.length ≤ 4 ∧ ∀ c ∈ w, isHex c = true

/-- Texts joined with colons. -/
def joinC : List (List Char) → List Char
  | [] => []
  | [w] => w
  | w :: ws => w ++ ':' :: joinC ws

/-- A sequence of groups, the last of which may be a dotted quad standing for two groups: how many 16-bit groups it denotes. -/
inductive Units : List (List Char) → Nat → Prop
  | nil : Units [] 0
  | quad (w) (h : IsIPv4 w) : Units [w] 2
  | cons (g) (gs) (n) (hg : IsGroup g) (h : Units gs n) : Units (g :: gs) (n + 1)

/-- IPv6 addresses (RFC 4291, section 2.2): eight groups, or fewer with one `::` that stands for one or more groups of zeros; the last two
groups may be written as a dotted quad. -/
def IsIPv6 (w : List Char) : Prop :=
  (∃ gs, Units gs 8 ∧ w = joinC gs) ∨
  (∃ ls rs n, (∀ g ∈ ls, IsGroup g) ∧ Units rs n ∧ ls.length + n ≤ 7 ∧ w = joinC ls ++ ':' :: ':' :: joinC rs)

theorem h16_iff (w : List Char) : h16.L w ↔ IsGroup w := by
  rw [h16, hexCls, Re.L_range_cls _ _ _ (by decide)]; rfl

theorem h16c_iff (w : List Char) : h16c.L w ↔ ∃ g, IsGroup g ∧ w = g ++ [':'] := by
  simp only [h16c, Re.L, Re.L_chr, h16_iff]
  constructor
  · rintro ⟨u, v, hu, rfl, rfl⟩; exact ⟨u, hu, rfl⟩
  · rintro ⟨g, hg, rfl⟩; exact ⟨g, [':'], hg, rfl, rfl⟩

/-- Groups each followed by a colon. -/
def colons (gs : List (List Char)) : List Char := (gs.map (· ++ [':'])).flatten

theorem flatten_h16c : ∀ (ws : List (List Char)), (∀ x ∈ ws, h16c.L x) → ∃ gs, (∀ g ∈ gs, IsGroup g) ∧ gs.length = ws.length ∧ ws.flatten = colons gs := by
  intro ws
  induction ws with
  | nil => intro _; exact ⟨[], by simp, rfl, rfl⟩
  | cons w ws ih =>
    intro h
    obtain ⟨g, hg, rfl⟩ := (h16c_iff w).1 (h w (by simp))
    obtain ⟨gs, h1, h2, h3⟩ := ih (fun x hx => h x (by simp [hx]))
    refine ⟨g :: gs, ?_, by simp [h2], by simp [colons, h3]⟩
    intro x hx
    rcases List.mem_cons.1 hx with rfl | hx
    · exact hg
    · exact h1 x hx

theorem colons_flatten (gs : List (List Char)) (h : ∀ g ∈ gs, IsGroup g) : ∀ x ∈ gs.map (· ++ [':']), h16c.L x := by
  intro x hx
  obtain ⟨g, hg, rfl⟩ := List.mem_map.1 hx
  exact (h16c_iff _).2 ⟨g, h g hg, rfl⟩

theorem rep_h16c (n : Nat) (w : List Char) : (rep n h16c).L w ↔ ∃ gs, gs.length = n ∧ (∀ g ∈ gs, IsGroup g) ∧ w = colons gs := by
  rw [Re.L_rep]
  constructor
  · rintro ⟨ws, h1, h2, rfl⟩
    obtain ⟨gs, a, b, c⟩ := flatten_h16c ws h2
    exact ⟨gs, by omega, a, c⟩
  · rintro ⟨gs, h1, h2, rfl⟩
    exact ⟨_, by simp [h1], colons_flatten gs h2, rfl⟩

theorem upTo_h16c (n : Nat) (w : List Char) : (upTo n h16c).L w ↔ ∃ gs, gs.length ≤ n ∧ (∀ g ∈ gs, IsGroup g) ∧ w = colons gs := by
  rw [Re.L_upTo]
  constructor
  · rintro ⟨ws, h1, h2, rfl⟩
    obtain ⟨gs, a, b, c⟩ := flatten_h16c ws h2
    exact ⟨gs, by omega, a, c⟩
  · rintro ⟨gs, h1, h2, rfl⟩
    exact ⟨_, by simp [h1], colons_flatten gs h2, rfl⟩

theorem joinC_colons (gs : List (List Char)) (us : List (List Char)) (h : us ≠ []) : joinC (gs ++ us) = colons gs ++ joinC us := by
  induction gs with
  | nil => rfl
  | cons g gs ih =>
    have : gs ++ us ≠ [] := by simp [h]
    obtain ⟨x, xs, hx⟩ := List.exists_cons_of_ne_nil this
    rw [List.cons_append, hx, joinC, ← hx, ih]
    · simp [colons]
    · simp

/-- Two groups or a dotted quad. -/
theorem l32_iff (w : List Char) : l32.L w ↔ ∃ us, Units us 2 ∧ us ≠ [] ∧ w = joinC us := by
  simp only [l32, Re.L, Re.L_chr, h16_iff, ipv4_iff]
  constructor
  · rintro (⟨u, v, hu, ⟨u', v', rfl, hv, rfl⟩, rfl⟩ | h)
    · exact ⟨[u, v'], .cons _ _ _ hu (.cons _ _ _ hv .nil), by simp, by simp [joinC]⟩
    · exact ⟨[w], .quad w h, by simp, rfl⟩
  · rintro ⟨us, hu, -, rfl⟩
    cases hu with
    | quad w h => exact Or.inr h
    | cons g gs n hg h =>
      cases h with
      | cons g' gs' n' hg' h' =>
        cases h' with
        | nil => exact Or.inl ⟨g, ':' :: g', hg, ⟨[':'], g', rfl, hg', rfl⟩, by simp [joinC]⟩

theorem units_split : ∀ {us : List (List Char)} {n : Nat}, Units us n → ∀ k, n = k + 2 →
    ∃ gs ts, gs.length = k ∧ (∀ g ∈ gs, IsGroup g) ∧ Units ts 2 ∧ ts ≠ [] ∧ us = gs ++ ts := by
  intro us n h
  induction h with
  | nil => intro k hk; omega
  | quad w h => intro k hk; exact ⟨[], [w], by simp; omega, by simp, .quad w h, by simp, rfl⟩
  | cons g gs n hg h ih =>
    intro k hk
    cases k with
    | zero =>
      have : n = 1 := by omega
      subst this
      exact ⟨[], g :: gs, rfl, by simp, .cons g gs 1 hg h, by simp, rfl⟩
    | succ k =>
      obtain ⟨as, ts, h1, h2, h3, h4, rfl⟩ := ih k (by omega)
      refine ⟨g :: as, ts, by simp [h1], ?_, h3, h4, rfl⟩
      intro x hx
      rcases List.mem_cons.1 hx with rfl | hx
      · exact hg
      · exact h2 x hx

theorem units_append : ∀ (gs : List (List Char)) (us : List (List Char)) (n : Nat), (∀ g ∈ gs, IsGroup g) → Units us n → Units (gs ++ us) (gs.length + n) := by
  intro gs
  induction gs with
  | nil => intro us n _ h; simpa using h
  | cons g gs ih =>
    intro us n hg h
    have := ih us n (fun x hx => hg x (by simp [hx])) h
    have := Units.cons g _ _ (hg g (by simp)) this
    rw [List.length_cons, show gs.length + 1 + n = gs.length + n + 1 by omega]
    exact this

/-- `(h16:){k} l32`: exactly `k + 2` groups. -/
theorem tail_iff (k : Nat) (w : List Char) : (∃ u v, (rep k h16c).L u ∧ l32.L v ∧ w = u ++ v) ↔ ∃ us, Units us (k + 2) ∧ w = joinC us := by
  simp only [rep_h16c, l32_iff]
  constructor
  · rintro ⟨u, v, ⟨gs, h1, h2, rfl⟩, ⟨us, h3, h4, rfl⟩, rfl⟩
    refine ⟨gs ++ us, ?_, by rw [joinC_colons _ _ h4]⟩
    have := units_append gs us 2 h2 h3
    rwa [h1] at this
  · rintro ⟨us, h, rfl⟩
    obtain ⟨gs, ts, h1, h2, h3, h4, rfl⟩ := units_split h k rfl
    exact ⟨colons gs, joinC ts, ⟨gs, h1, h2, rfl⟩, ⟨ts, h3, h4, rfl⟩, joinC_colons _ _ h4⟩

/-- `( (h16:){,n} h16 )?`: at most `n + 1` groups. -/
theorem left_iff (n : Nat) (w : List Char) : (left n).L w ↔ ∃ ls, (∀ g ∈ ls, IsGroup g) ∧ ls.length ≤ n + 1 ∧ w = joinC ls := by
  simp only [left, Re.L_opt, Re.L, upTo_h16c, h16_iff]
  constructor
  · rintro (⟨u, v, ⟨gs, h1, h2, rfl⟩, hv, rfl⟩ | rfl)
    · refine ⟨gs ++ [v], ?_, by simp; omega, by rw [joinC_colons _ _ (by simp)]; rfl⟩
      intro g hg
      rcases List.mem_append.1 hg with hg | hg
      · exact h2 g hg
      · simp only [List.mem_singleton] at hg; subst hg; exact hv
    · exact ⟨[], by simp, by simp, rfl⟩
  · rintro ⟨ls, h1, h2, rfl⟩
    rcases List.eq_nil_or_concat ls with rfl | ⟨gs, v, rfl⟩
    · exact Or.inr rfl
    · left
      refine ⟨colons gs, v, ⟨gs, by simp at h2; omega, fun g hg => h1 g (by simp [hg]), rfl⟩, h1 v (by simp), ?_⟩
      rw [List.concat_eq_append, joinC_colons _ _ (by simp)]; rfl

theorem opt_h16_iff (w : List Char) : (opt h16).L w ↔ ∃ ls, (∀ g ∈ ls, IsGroup g) ∧ ls.length ≤ 1 ∧ w = joinC ls := by
  rw [Re.L_opt, h16_iff]
  constructor
  · rintro (h | rfl)
    · exact ⟨[w], by simpa using h, by simp, rfl⟩
    · exact ⟨[], by simp, by simp, rfl⟩
  · rintro ⟨ls, h1, h2, rfl⟩
    match ls, h2 with
    | [], _ => exact Or.inr rfl
    | [g], _ => exact Or.inl (h1 g (by simp))

theorem dcolon_iff (w : List Char) : dcolon.L w ↔ w = [':', ':'] := by
  simp only [dcolon, Re.L, Re.L_chr]
  constructor
  · rintro ⟨u, v, rfl, rfl, rfl⟩; rfl
  · rintro rfl; exact ⟨[':'], [':'], rfl, rfl, rfl⟩

theorem ipv6_iff (w : List Char) : ipv6.L w ↔ IsIPv6 w := by
  have seqL : ∀ (a b : Re) (w : List Char), (Re.seq a b).L w ↔ ∃ u v, a.L u ∧ b.L v ∧ w = u ++ v := fun _ _ _ => Iff.rfl
  -- the right-hand sides
  have tl : ∀ k v, (Re.seq dcolon (Re.seq (rep k h16c) l32)).L v ↔ ∃ us, Units us (k + 2) ∧ v = ':' :: ':' :: joinC us := by
    intro k v
    rw [seqL]
    simp only [dcolon_iff]
    constructor
    · rintro ⟨u, x, rfl, hx, rfl⟩
      obtain ⟨us, h1, rfl⟩ := (tail_iff k x).1 hx
      exact ⟨us, h1, rfl⟩
    · rintro ⟨us, h1, rfl⟩
      exact ⟨_, joinC us, rfl, (tail_iff k _).2 ⟨us, h1, rfl⟩, rfl⟩
  have tl0 : ∀ v, (Re.seq dcolon l32).L v ↔ ∃ us, Units us 2 ∧ v = ':' :: ':' :: joinC us := by
    intro v
    rw [seqL]
    simp only [dcolon_iff, l32_iff]
    constructor
    · rintro ⟨u, x, rfl, ⟨us, h1, -, rfl⟩, rfl⟩; exact ⟨us, h1, rfl⟩
    · rintro ⟨us, h1, rfl⟩
      refine ⟨_, joinC us, rfl, ⟨us, h1, ?_, rfl⟩, rfl⟩
      rintro rfl; cases h1
  have tl1 : ∀ v, (Re.seq dcolon h16).L v ↔ ∃ us, Units us 1 ∧ v = ':' :: ':' :: joinC us := by
    intro v
    rw [seqL]
    simp only [dcolon_iff, h16_iff]
    constructor
    · rintro ⟨u, x, rfl, h, rfl⟩; exact ⟨[x], .cons _ _ _ h .nil, rfl⟩
    · rintro ⟨us, h1, rfl⟩
      cases h1 with
      | cons g gs n hg h => cases h with | nil => exact ⟨_, g, rfl, hg, rfl⟩
  have tlz : ∀ v, dcolon.L v ↔ ∃ us, Units us 0 ∧ v = ':' :: ':' :: joinC us := by
    intro v
    rw [dcolon_iff]
    constructor
    · rintro rfl; exact ⟨[], .nil, rfl⟩
    · rintro ⟨us, h, rfl⟩; cases h; rfl
  -- one branch: at most m groups, `::`, exactly n groups
  have br : ∀ (A B : Re) (m n : Nat), (∀ w, A.L w ↔ ∃ ls, (∀ g ∈ ls, IsGroup g) ∧ ls.length ≤ m ∧ w = joinC ls) →
      (∀ v, B.L v ↔ ∃ us, Units us n ∧ v = ':' :: ':' :: joinC us) → ∀ w, (Re.seq A B).L w ↔
      ∃ ls rs, (∀ g ∈ ls, IsGroup g) ∧ Units rs n ∧ ls.length ≤ m ∧ w = joinC ls ++ ':' :: ':' :: joinC rs := by
    intro A B m n hA hB w
    rw [seqL]
    simp only [hA, hB]
    constructor
    · rintro ⟨u, v, ⟨ls, h1, h2, rfl⟩, ⟨rs, h3, rfl⟩, rfl⟩
      exact ⟨ls, rs, h1, h3, h2, rfl⟩
    · rintro ⟨ls, rs, h1, h3, h2, rfl⟩
      exact ⟨_, _, ⟨ls, h1, h2, rfl⟩, ⟨rs, h3, rfl⟩, rfl⟩
  have altL : ∀ (a b : Re) (w : List Char), (Re.alt a b).L w ↔ a.L w ∨ b.L w := fun _ _ _ => Iff.rfl
  unfold ipv6
  simp only [altL]
  rw [br _ _ 1 6 opt_h16_iff (tl 4), br _ _ 2 5 (left_iff 1) (tl 3), br _ _ 3 4 (left_iff 2) (tl 2), br _ _ 4 3 (left_iff 3) (tl 1),
    br _ _ 5 2 (left_iff 4) tl0, br _ _ 6 1 (left_iff 5) tl1, br _ _ 7 0 (left_iff 6) tlz, tl 5]
  rw [show (Re.seq (rep 6 h16c) l32).L w ↔ ∃ us, Units us 8 ∧ w = joinC us from tail_iff 6 w]
  unfold IsIPv6
  constructor
  · rintro (h | ⟨rs, h, rfl⟩ | h | h | h | h | h | h | h)
    · exact Or.inl h
    · exact Or.inr ⟨[], rs, 7, by simp, h, by simp, rfl⟩
    all_goals
      obtain ⟨ls, rs, h1, h2, h3, rfl⟩ := h
      exact Or.inr ⟨ls, rs, _, h1, h2, by omega, rfl⟩
  · rintro (h | ⟨ls, rs, n, h1, h2, h3, rfl⟩)
    · exact Or.inl h
    · right
      have hn : n ≤ 7 := by omega
      have hcase : n = 7 ∨ n = 6 ∨ n = 5 ∨ n = 4 ∨ n = 3 ∨ n = 2 ∨ n = 1 ∨ n = 0 := by omega
      rcases hcase with rfl | rfl | rfl | rfl | rfl | rfl | rfl | rfl
      · left
        have : ls = [] := List.length_eq_zero_iff.1 (by omega)
        subst this
        exact ⟨rs, h2, rfl⟩
      · exact Or.inr (Or.inl ⟨ls, rs, h1, h2, by omega, rfl⟩)
      · exact Or.inr (Or.inr (Or.inl ⟨ls, rs, h1, h2, by omega, rfl⟩))
      · exact Or.inr (Or.inr (Or.inr (Or.inl ⟨ls, rs, h1, h2, by omega, rfl⟩)))
      · exact Or.inr (Or.inr (Or.inr (Or.inr (Or.inl ⟨ls, rs, h1, h2, by omega, rfl⟩))))
      · exact Or.inr (Or.inr (Or.inr (Or.inr (Or.inr (Or.inl ⟨ls, rs, h1, h2, by omega, rfl⟩)))))
      · exact Or.inr (Or.inr (Or.inr (Or.inr (Or.inr (Or.inr (Or.inl ⟨ls, rs, h1, h2, by omega, rfl⟩))))))
      · exact Or.inr (Or.inr (Or.inr (Or.inr (Or.inr (Or.inr (Or.inr ⟨ls, rs, h1, h2, by omega, rfl⟩))))))

/-- **C59.**  `IPv6Type` accepts a text iff it is an IPv6 address in one of the forms of RFC 4291; a final newline is allowed. -/
theorem C59_ipv6_exact (app : Val) (s : String) : Passes (ipv6Type) app s ↔ Full IsIPv6 s.toList := by
  rw [ipv6Type, passes_pattern, ipv6Regex, Re.anchored_iff _ pure_ipv6]
  simp only [Full, ipv6_iff]

/-! ## C60: either -/

/-- What `IPAddressType` accepts: an IPv6 address, or any text that starts with an IPv4 address. -/
theorem C60_ip_exact (app : Val) (s : String) :
    Passes (ipType) app s ↔ (∃ w rest, IsIPv4 w ∧ s.toList = w ++ rest) ∨ Full IsIPv6 s.toList := by
  rw [ipType, passes_pattern, ← C59_ipv6_exact app s, ipv6Type, passes_pattern, Re.test_iff, ipRegex]
  simp only [Re.run, List.mem_append, exists_or]
  apply or_congr
  · simp only [List.mem_flatMap, Re.run_iff _ pure_ipv4, St.guard, St.start, List.isEmpty_nil, if_true, List.mem_singleton, ipv4_iff]
    constructor
    · rintro ⟨y, x, rfl, w, hw, h⟩
      exact ⟨w, y.rest, hw, h.1⟩
    · rintro ⟨w, rest, hw, h⟩
      exact ⟨⟨w.reverse, rest, []⟩, _, rfl, w, hw, h, by simp, rfl⟩
  · rw [Re.test_iff, ipv6Regex]
    simp only [Re.run, List.mem_flatMap, St.guard, St.start, List.isEmpty_nil, if_true, List.mem_singleton, exists_eq_left]

/-- **C60**:  Every IPv4 and every IPv6 address is accepted.  (Not only those: see `C60_ip_exact`.) -/
theorem C60_accepts_addresses (app : Val) (s : String) (h : IsIPv4 s.toList ∨ IsIPv6 s.toList) : Passes (ipType) app s := by
  rw [C60_ip_exact]
  rcases h with h | h
  · exact Or.inl ⟨s.toList, [], h, by simp⟩
  · exact Or.inr (Or.inl h)

theorem sampleV4 : IsIPv4 "10.0.0.255".toList :=
  ⟨"10".toList, "0".toList, "0".toList, "255".toList, by unfold IsOctet; decide, by unfold IsOctet; decide, by unfold IsOctet; decide,
    by unfold IsOctet; decide, by decide⟩

/-- **C60, what fails.**  Any text at all may follow an IPv4 address. -/
theorem C60_counterexample_trailing_text (app : Val) (rest : String) : Passes (ipType) app ("10.0.0.255" ++ rest) := by
  rw [C60_ip_exact]
  exact Or.inl ⟨"10.0.0.255".toList, rest.toList, sampleV4, by simp⟩

/-- The two strict types refuse such text. -/
theorem C60_strict_types_refuse (app : Val) :
    ¬ Passes (ipv4Type) app "10.0.0.255; DROP TABLE" ∧ ¬ Passes (ipv6Type) app "10.0.0.255; DROP TABLE" ∧ Passes (ipType) app "10.0.0.255; DROP TABLE" := by
  refine ⟨?_, ?_, C60_counterexample_trailing_text app "; DROP TABLE"⟩
  · rw [ipv4Type, passes_pattern]; decide +kernel
  · rw [ipv6Type, passes_pattern]; decide +kernel

/-! ## C61: MAC addresses -/

/-- Blocks of `k` hexadecimal digits each. -/
def Blocks (k n : Nat) (bs : List (List Char)) : Prop := bs.length = n ∧ ∀ b ∈ bs, b.length = k ∧ ∀ c ∈ b, isHex c = true

/-- Blocks separated by a character. -/
def joinSep (sep : Char) : List (List Char) → List Char
  | [] => []
  | [w] => w
  | w :: ws => w ++ sep :: joinSep sep ws

/-- The documented notations of a 48-bit address: `aa-bb-..`, `aa:bb:..`, twelve digits, two blocks of six, three blocks
of four. -/
def IsMac (w : List Char) : Prop :=
  (∃ bs, Blocks 2 6 bs ∧ w = joinSep '-' bs) ∨ (∃ bs, Blocks 2 6 bs ∧ w = joinSep ':' bs) ∨
  (∃ bs, Blocks 12 1 bs ∧ w = joinSep ':' bs) ∨ (∃ bs sep, Blocks 6 2 bs ∧ (sep = '-' ∨ sep = ':') ∧ w = joinSep sep bs) ∨
  (∃ bs, Blocks 4 3 bs ∧ w = joinSep '.' bs)

theorem hexN_iff (n : Nat) (w : List Char) : (hexN n).L w ↔ w.length = n ∧ ∀ c ∈ w, isHex c = true := by
  rw [hexN, hexCls, Re.L_rep_cls]

theorem blocks_cons (k n : Nat) (b : List Char) (bs : List (List Char)) :
    Blocks k (n + 1) (b :: bs) ↔ (b.length = k ∧ ∀ c ∈ b, isHex c = true) ∧ Blocks k n bs := by
  unfold Blocks
  simp only [List.length_cons, List.mem_cons, forall_eq_or_imp]
  constructor
  · rintro ⟨h1, h2, h3⟩; exact ⟨h2, by omega, h3⟩
  · rintro ⟨h2, h1, h3⟩; exact ⟨by omega, h2, h3⟩

/-- `(block sep){n} block` -/
theorem repBlock_iff (k : Nat) (sep : Char) : ∀ (n : Nat) (w : List Char),
    (∃ u v, (rep n (.seq (hexN k) (chr sep))).L u ∧ (hexN k).L v ∧ w = u ++ v) ↔ ∃ bs, Blocks k (n + 1) bs ∧ w = joinSep sep bs := by
  intro n
  induction n with
  | zero =>
    intro w
    constructor
    · rintro ⟨u, v, hu, hv, rfl⟩
      change u = [] at hu
      subst hu
      exact ⟨[v], (blocks_cons _ _ _ _).2 ⟨(hexN_iff _ _).1 hv, rfl, by simp⟩, rfl⟩
    · rintro ⟨bs, hb, rfl⟩
      match bs, hb with
      | [b], hb => exact ⟨[], b, rfl, (hexN_iff _ _).2 ((blocks_cons _ _ _ _).1 hb).1, rfl⟩
  | succ n ih =>
    intro w
    constructor
    · rintro ⟨u, v, ⟨a, r, ⟨b, s, hb, hs, rfl⟩, hr, rfl⟩, hv, rfl⟩
      obtain ⟨bs, h1, h2⟩ := (ih (r ++ v)).1 ⟨r, v, hr, hv, rfl⟩
      rw [Re.L_chr] at hs
      subst hs
      refine ⟨b :: bs, (blocks_cons _ _ _ _).2 ⟨(hexN_iff _ _).1 hb, h1⟩, ?_⟩
      match bs, h1, h2 with
      | c :: cs, _, h2 => simp [joinSep, ← h2]
    · rintro ⟨bs, hb, rfl⟩
      match bs, hb with
      | b :: c :: cs, hb =>
        obtain ⟨h1, h2⟩ := (blocks_cons _ _ _ _).1 hb
        obtain ⟨r, v, hr, hv, e⟩ := (ih (joinSep sep (c :: cs))).2 ⟨_, h2, rfl⟩
        refine ⟨(b ++ [sep]) ++ r, v, ⟨b ++ [sep], r, ⟨b, [sep], (hexN_iff _ _).2 h1, (Re.L_chr _ _).2 rfl, rfl⟩, hr, rfl⟩, hv, ?_⟩
        simp [joinSep, e]

/-- `block (sep block){n}` -/
theorem blockRep_iff (k : Nat) (sep : Char) : ∀ (n : Nat) (w : List Char),
    (∃ u v, (hexN k).L u ∧ (rep n (.seq (chr sep) (hexN k))).L v ∧ w = u ++ v) ↔ ∃ bs, Blocks k (n + 1) bs ∧ w = joinSep sep bs := by
  intro n
  induction n with
  | zero =>
    intro w
    constructor
    · rintro ⟨u, v, hu, hv, rfl⟩
      change v = [] at hv
      subst hv
      exact ⟨[u], (blocks_cons _ _ _ _).2 ⟨(hexN_iff _ _).1 hu, rfl, by simp⟩, by simp [joinSep]⟩
    · rintro ⟨bs, hb, rfl⟩
      match bs, hb with
      | [b], hb => exact ⟨b, [], (hexN_iff _ _).2 ((blocks_cons _ _ _ _).1 hb).1, rfl, by simp [joinSep]⟩
  | succ n ih =>
    intro w
    constructor
    · rintro ⟨u, v, hu, ⟨a, r, ⟨s, b, hs, hb, rfl⟩, hr, rfl⟩, rfl⟩
      obtain ⟨bs, h1, h2⟩ := (ih (b ++ r)).1 ⟨b, r, hb, hr, rfl⟩
      rw [Re.L_chr] at hs
      subst hs
      refine ⟨u :: bs, (blocks_cons _ _ _ _).2 ⟨(hexN_iff _ _).1 hu, h1⟩, ?_⟩
      match bs, h1, h2 with
      | c :: cs, _, h2 => simp [joinSep, ← h2]
    · rintro ⟨bs, hb, rfl⟩
      match bs, hb with
      | b :: c :: cs, hb =>
        obtain ⟨h1, h2⟩ := (blocks_cons _ _ _ _).1 hb
        obtain ⟨r, v, hr, hv, e⟩ := (ih (joinSep sep (c :: cs))).2 ⟨_, h2, rfl⟩
        refine ⟨b, ([sep] ++ r) ++ v, (hexN_iff _ _).2 h1, ⟨[sep] ++ r, v, ⟨[sep], r, (Re.L_chr _ _).2 rfl, hr, rfl⟩, hv, rfl⟩, ?_⟩
        simp [joinSep, e]

theorem full_or (P Q : List Char → Prop) (s : List Char) : Full (fun w => P w ∨ Q w) s ↔ Full P s ∨ Full Q s := by
  unfold Full
  constructor
  · rintro ((h | h) | ⟨w, h | h, e⟩)
    · exact Or.inl (Or.inl h)
    · exact Or.inr (Or.inl h)
    · exact Or.inl (Or.inr ⟨w, h, e⟩)
    · exact Or.inr (Or.inr ⟨w, h, e⟩)
  · rintro ((h | ⟨w, h, e⟩) | (h | ⟨w, h, e⟩))
    · exact Or.inl (Or.inl h)
    · exact Or.inr ⟨w, Or.inl h, e⟩
    · exact Or.inl (Or.inr h)
    · exact Or.inr ⟨w, Or.inr h, e⟩

theorem full_congr {P Q : List Char → Prop} (h : ∀ w, P w ↔ Q w) (s : List Char) : Full P s ↔ Full Q s := by
  unfold Full; simp only [h]

theorem test_alt (a b : Re) (s : List Char) : (Re.alt a b).test s = true ↔ a.test s = true ∨ b.test s = true := by
  simp only [Re.test_iff, Re.run, List.mem_append, exists_or]

/-- An expression without final anchor: some beginning of the text matches. -/
theorem _root_.Verif.Py.Re.prefix_iff (r : Re) (hp : r.pure = true) (s : List Char) :
    (Re.seq .bol r).test s = true ↔ ∃ w rest, r.L w ∧ s = w ++ rest := by
  rw [Re.test_iff]
  simp only [Re.run, List.mem_flatMap, Re.run_iff r hp, St.guard, St.start, List.isEmpty_nil, if_true, List.mem_singleton]
  constructor
  · rintro ⟨y, x, rfl, w, hw, h⟩
    exact ⟨w, y.rest, hw, h.1⟩
  · rintro ⟨w, rest, hw, h⟩
    exact ⟨⟨w.reverse, rest, []⟩, _, rfl, w, hw, h, by simp, rfl⟩

theorem seq_assoc_test (a b c : Re) (s : List Char) :
    (Re.seq .bol (.seq a (.seq b c))).test s = (Re.seq .bol (.seq (.seq a b) c)).test s := by
  unfold Re.test
  simp only [Re.run, List.flatMap_assoc]

theorem passes_mac (app : Val) (s : String) : Passes (macType) app s ↔ macRegex.test s.toList = true :=
  passes_pattern "mac" macRegex app s

/-- What `MACAddressType` accepts: the documented notations (with an optional final newline), and any text that starts with twelve
hexadecimal digits. -/
theorem C61_mac_exact (app : Val) (s : String) :
    Passes (macType) app s ↔ Full IsMac s.toList ∨ ∃ w rest, s.toList = w ++ rest ∧ w.length = 12 ∧ ∀ c ∈ w, isHex c = true := by
  rw [passes_mac, macRegex]
  simp only [test_alt]
  rw [seq_assoc_test, seq_assoc_test, seq_assoc_test (hexN 4), seq_assoc_test (hexN 6),
    seq_assoc_test (.seq (hexN 6) _)]
  rw [Re.anchored_iff _ rfl, Re.anchored_iff _ rfl, Re.anchored_iff _ rfl, Re.anchored_iff _ rfl, Re.prefix_iff _ rfl]
  have e1 : ∀ w, (Re.seq (rep 5 (.seq (hexN 2) (chr '-'))) (hexN 2)).L w ↔ ∃ bs, Blocks 2 6 bs ∧ w = joinSep '-' bs := repBlock_iff 2 '-' 5
  have e2 : ∀ w, (Re.seq (rep 5 (.seq (hexN 2) (chr ':'))) (hexN 2)).L w ↔ ∃ bs, Blocks 2 6 bs ∧ w = joinSep ':' bs := repBlock_iff 2 ':' 5
  have e3 : ∀ w, (Re.seq (hexN 4) (rep 2 (.seq (chr '.') (hexN 4)))).L w ↔ ∃ bs, Blocks 4 3 bs ∧ w = joinSep '.' bs := blockRep_iff 4 '.' 2
  have e4 : ∀ w, (Re.seq (.seq (hexN 6) (.cls fun c => c == '-' || c == ':')) (hexN 6)).L w ↔
      ∃ bs sep, Blocks 6 2 bs ∧ (sep = '-' ∨ sep = ':') ∧ w = joinSep sep bs := by
    intro w
    simp only [Re.L, hexN_iff]
    constructor
    · rintro ⟨u, v, ⟨a, b, ha, ⟨c, hc, rfl⟩, rfl⟩, hv, rfl⟩
      refine ⟨[a, v], c, (blocks_cons _ _ _ _).2 ⟨ha, (blocks_cons _ _ _ _).2 ⟨hv, rfl, by simp⟩⟩, by simpa using hc, by simp [joinSep]⟩
    · rintro ⟨bs, sep, hb, hs, rfl⟩
      match bs, hb with
      | [a, v], hb =>
        obtain ⟨h1, h2⟩ := (blocks_cons _ _ _ _).1 hb
        exact ⟨a ++ [sep], v, ⟨a, [sep], h1, ⟨sep, by simpa using hs, rfl⟩, rfl⟩, ((blocks_cons _ _ _ _).1 h2).1, by simp [joinSep]⟩
  have e5 : ∀ w : List Char, (w.length = 12 ∧ ∀ c ∈ w, isHex c = true) ↔ ∃ bs, Blocks 12 1 bs ∧ w = joinSep ':' bs := by
    intro w
    constructor
    · intro h; exact ⟨[w], (blocks_cons _ _ _ _).2 ⟨h, rfl, by simp⟩, rfl⟩
    · rintro ⟨bs, hb, rfl⟩
      match bs, hb with
      | [b], hb => exact ((blocks_cons _ _ _ _).1 hb).1
  rw [full_congr e1, full_congr e2, full_congr e3, full_congr e4]
  have hf : Full IsMac s.toList ↔ _ := full_or _ _ s.toList
  rw [hf, full_or, full_or, full_or]
  simp only [hexN_iff]
  have h5 : Full (fun w => ∃ bs, Blocks 12 1 bs ∧ w = joinSep ':' bs) s.toList →
      ∃ w rest, s.toList = w ++ rest ∧ w.length = 12 ∧ ∀ c ∈ w, isHex c = true := by
    rw [← full_congr e5]
    rintro (h | ⟨w, h, e⟩)
    · exact ⟨_, [], by simp, h⟩
    · exact ⟨w, _, e, h⟩
  have h6 : (∃ w rest, (w.length = 12 ∧ ∀ c ∈ w, isHex c = true) ∧ s.toList = w ++ rest) ↔
      ∃ w rest, s.toList = w ++ rest ∧ w.length = 12 ∧ ∀ c ∈ w, isHex c = true := by
    constructor
    · rintro ⟨w, r, h, e⟩; exact ⟨w, r, e, h⟩
    · rintro ⟨w, r, e, h⟩; exact ⟨w, r, h, e⟩
  rw [h6]
  constructor
  · rintro (h | h | h | h | h)
    · exact Or.inl (Or.inl h)
    · exact Or.inl (Or.inr (Or.inl h))
    · exact Or.inr h
    · exact Or.inl (Or.inr (Or.inr (Or.inr (Or.inl h))))
    · exact Or.inl (Or.inr (Or.inr (Or.inr (Or.inr h))))
  · rintro ((h | h | h | h | h) | h)
    · exact Or.inl h
    · exact Or.inr (Or.inl h)
    · exact Or.inr (Or.inr (Or.inl (h5 h)))
    · exact Or.inr (Or.inr (Or.inr (Or.inl h)))
    · exact Or.inr (Or.inr (Or.inr (Or.inr h)))
    · exact Or.inr (Or.inr (Or.inl h))

/-- The hexadecimal digits of a text, in order: what a notation denotes. -/
def hexDigits (w : List Char) : List Char := w.filter isHex

theorem macDigits_eq (w : List Char) : macDigits w = w.filter fun c => c != ':' && c != '.' && c != '-' := by
  simp only [macDigits, List.filter_filter]
  congr 1; funext c
  cases h1 : c != ':' <;> cases h2 : c != '.' <;> cases h3 : c != '-' <;> rfl

theorem hex_ne {c : Char} (h : isHex c = true) : c ≠ ':' ∧ c ≠ '.' ∧ c ≠ '-' := by
  refine ⟨?_, ?_, ?_⟩ <;> · rintro rfl; revert h; decide

theorem macDigits_hex (b : List Char) (h : ∀ c ∈ b, isHex c = true) : macDigits b = b := by
  rw [macDigits_eq, List.filter_eq_self]
  intro c hc
  obtain ⟨h1, h2, h3⟩ := hex_ne (h c hc)
  simp [h1, h2, h3]

theorem macDigits_append (a b : List Char) : macDigits (a ++ b) = macDigits a ++ macDigits b := by
  simp only [macDigits_eq, List.filter_append]

theorem macDigits_join (k : Nat) (sep : Char) (hs : sep = ':' ∨ sep = '.' ∨ sep = '-') : ∀ (n : Nat) (bs : List (List Char)), Blocks k n bs →
    macDigits (joinSep sep bs) = bs.flatten ∧ (∀ c ∈ bs.flatten, isHex c = true) ∧ bs.flatten.length = n * k ∧ hexDigits (joinSep sep bs) = bs.flatten := by
  intro n bs
  induction bs generalizing n with
  | nil =>
    rintro ⟨h, -⟩
    simp only [List.length_nil] at h
    subst h
    simp [macDigits, joinSep, hexDigits]
  | cons b bs ih =>
    intro hb
    cases n with
    | zero => cases hb.1
    | succ n =>
      obtain ⟨⟨h1, h2⟩, h3⟩ := (blocks_cons _ _ _ _).1 hb
      obtain ⟨i1, i2, i3, i4⟩ := ih n h3
      have hbf : hexDigits b = b := by unfold hexDigits; rw [List.filter_eq_self]; exact h2
      have key : macDigits (joinSep sep (b :: bs)) = b ++ macDigits (joinSep sep bs) ∧ hexDigits (joinSep sep (b :: bs)) = b ++ hexDigits (joinSep sep bs) := by
        cases bs with
        | nil =>
          have e0 : joinSep sep ([] : List (List Char)) = [] := rfl
          have e1 : joinSep sep [b] = b := rfl
          rw [e0, e1, macDigits_hex b h2, hbf]
          exact ⟨by simp [macDigits], by simp [hexDigits]⟩
        | cons c cs =>
          have e : joinSep sep (b :: c :: cs) = b ++ ([sep] ++ joinSep sep (c :: cs)) := by simp [joinSep]
          rw [e]
          constructor
          · rw [macDigits_append, macDigits_append, macDigits_hex b h2]
            congr 1
            rcases hs with rfl | rfl | rfl <;> rfl
          · unfold hexDigits at *
            rw [List.filter_append, List.filter_append, hbf]
            congr 1
            rcases hs with rfl | rfl | rfl <;> rfl
      refine ⟨by rw [key.1, i1]; rfl, ?_, ?_, by rw [key.2, i4]; rfl⟩
      · intro c hc
        rw [List.flatten_cons, List.mem_append] at hc
        rcases hc with hc | hc
        · exact h2 c hc
        · exact i2 c hc
      · rw [List.flatten_cons, List.length_append, h1, i3]; rw [Nat.add_mul]; omega

/-- All notations denote twelve digits, and the separators are all that is removed on export. -/
theorem isMac_digits {w : List Char} (h : IsMac w) :
    (hexDigits w).length = 12 ∧ (∀ c ∈ hexDigits w, isHex c = true) ∧ macDigits w = hexDigits w := by
  have go : ∀ k n sep bs, (sep = ':' ∨ sep = '.' ∨ sep = '-') → n * k = 12 → Blocks k n bs → w = joinSep sep bs →
      (hexDigits w).length = 12 ∧ (∀ c ∈ hexDigits w, isHex c = true) ∧ macDigits w = hexDigits w := by
    intro k n sep bs hs hk hb hw
    obtain ⟨h1, h2, h3, h4⟩ := macDigits_join k sep hs n bs hb
    rw [← hw] at h1 h4
    exact ⟨by rw [h4, h3, hk], by rw [h4]; exact h2, by rw [h1, h4]⟩
  rcases h with ⟨bs, h, e⟩ | ⟨bs, h, e⟩ | ⟨bs, h, e⟩ | ⟨bs, sep, h, hs, e⟩ | ⟨bs, h, e⟩
  · exact go _ _ _ _ (by simp) rfl h e
  · exact go _ _ _ _ (by simp) rfl h e
  · exact go _ _ _ _ (by simp) rfl h e
  · exact go _ _ _ _ (by rcases hs with rfl | rfl <;> simp) rfl h e
  · exact go _ _ _ _ (by simp) rfl h e

/-- Twelve digits in pairs. -/
theorem colonPairs_twelve {d : List Char} (hl : d.length = 12) (hd : ∀ c ∈ d, isHex c = true) :
    ∃ bs, Blocks 2 6 bs ∧ bs.flatten = d ∧ colonPairs d = joinSep ':' bs := by
  match d, hl with
  | [a, b, c, d, e, f, g, h, i, j, k, l], _ =>
    refine ⟨[[a, b], [c, d], [e, f], [g, h], [i, j], [k, l]], ⟨rfl, ?_⟩, rfl, rfl⟩
    intro x hx
    simp only [List.mem_cons, List.not_mem_nil, or_false] at hx
    rcases hx with rfl | rfl | rfl | rfl | rfl | rfl
    all_goals
      refine ⟨rfl, fun y hy => hd y ?_⟩
      simp only [List.mem_cons, List.not_mem_nil, or_false] at hy ⊢
      rcases hy with rfl | rfl <;> simp

/-- **C61, export.**  Exporting a 48-bit address in any of the documented notations gives its colon form: six pairs of digits separated by
colons, the same digits in the same order; the type accepts that form and exports it unchanged. -/
theorem C61_export_canonical (app eapp : Val) (s : String) (h : IsMac s.toList) :
    ∃ t bs, (macType).toPrimitive eapp (.str s) = .ok (.str t) ∧ Blocks 2 6 bs ∧ t.toList = joinSep ':' bs ∧
      bs.flatten = hexDigits s.toList ∧ Passes (macType) app t ∧ (macType).toPrimitive eapp (.str t) = .ok (.str t) := by
  obtain ⟨h1, h2, h3⟩ := isMac_digits h
  obtain ⟨bs, hb, hf, hp⟩ := colonPairs_twelve h1 h2
  have hj := macDigits_join 2 ':' (Or.inl rfl) 6 bs hb
  have e : (macType).toPrimitive eapp (.str s) = .ok (.str (String.ofList (joinSep ':' bs))) := by
    show Except.ok (Val.str (String.ofList (colonPairs (macDigits s.toList)))) = _
    rw [h3, hp]
  have e2 : (String.ofList (joinSep ':' bs)).toList = joinSep ':' bs := String.toList_ofList
  refine ⟨_, bs, e, hb, e2, hf, ?_, ?_⟩
  · rw [C61_mac_exact, e2]
    exact Or.inl (Or.inl (Or.inr (Or.inl ⟨bs, hb, rfl⟩)))
  · show Except.ok (Val.str (String.ofList (colonPairs (macDigits (String.ofList (joinSep ':' bs)).toList)))) = _
    rw [e2, hj.1, hf, hp]

/-- Two notations of the same address export to the same text. -/
theorem C61_export_unique (eapp : Val) (s t : String) (hs : IsMac s.toList) (ht : IsMac t.toList) (h : hexDigits s.toList = hexDigits t.toList) :
    (macType).toPrimitive eapp (.str s) = (macType).toPrimitive eapp (.str t) := by
  show Except.ok (Val.str (String.ofList (colonPairs (macDigits s.toList)))) = Except.ok (Val.str (String.ofList (colonPairs (macDigits t.toList))))
  rw [(isMac_digits hs).2.2, (isMac_digits ht).2.2, h]

/-- **C61, what fails.**  Any text at all may follow twelve digits. -/
theorem C61_counterexample_trailing_text (app : Val) (rest : String) : Passes (macType) app ("00112233aabb" ++ rest) := by
  rw [C61_mac_exact]
  exact Or.inr ⟨"00112233aabb".toList, rest.toList, by simp, by decide, by decide⟩

/-- ... and exporting an accepted text with a final newline gives a text that is refused. -/
theorem C61_counterexample_newline (app eapp : Val) : Passes (macType) app "00-11-22-33-aa-bb\n" ∧
    (macType).toPrimitive eapp (.str "00-11-22-33-aa-bb\n") = .ok (.str "00:11:22:33:aa:bb:\n") ∧ ¬ Passes (macType) app "00:11:22:33:aa:bb:\n" := by
  refine ⟨?_, rfl, ?_⟩
  · rw [passes_mac]; decide +kernel
  · rw [passes_mac]; decide +kernel

/-! ## The hypotheses are met -/

example : Passes (ipv4Type) .none "192.168.0.1" ∧ ¬ Passes (ipv4Type) .none "192.168.0.256" := by
  constructor
  · rw [ipv4Type, passes_pattern]; decide +kernel
  · rw [ipv4Type, passes_pattern]; decide +kernel

/-- An address with `::` and a dotted quad. -/
theorem sampleV6 : IsIPv6 "fe80::1:10.0.0.255".toList :=
  Or.inr ⟨["fe80".toList], ["1".toList, "10.0.0.255".toList], 3, by unfold IsGroup; decide,
    .cons _ _ _ (by unfold IsGroup; decide) (.quad _ sampleV4), by decide, by decide⟩

example : Passes (ipType) .none "fe80::1:10.0.0.255" := C60_accepts_addresses _ _ (Or.inr sampleV6)
example : Passes (ipv6Type) .none "fe80::1:10.0.0.255" := (C59_ipv6_exact _ _).2 (Or.inl sampleV6)

example : IsMac "0011.2233.aabb".toList :=
  Or.inr (Or.inr (Or.inr (Or.inr ⟨["0011".toList, "2233".toList, "aabb".toList], by unfold Blocks; decide, by decide⟩)))

end Verif.Types
