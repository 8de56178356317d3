import Verif.Props.Formats

/-!
# C98: what a text that is read says

Whatever the format and the text: if `strptime` gives a value, the text is the concatenation of pieces, one for each piece of the format, and every piece says what the value has.
-/
namespace Verif.Types
open Verif.Py

/-! ## Specification -/

/-- The number that a text of decimal digits (of any script) denotes, after the digits read so far. -/
def numeral : Nat → List Char → Option Nat
  | a, [] => some a
  | a, c :: cs =>
    match digitVal c with
    | some d => numeral (10 * a + d) cs
    | none => none

/-- One or two digits. -/
def SmallNumber (w : List Char) (n : Nat) : Prop := (w.length = 1 ∨ w.length = 2) ∧ numeral 0 w = some n

/-- Two digits. -/
def TwoDigits (w : List Char) (n : Nat) : Prop := w.length = 2 ∧ numeral 0 w = some n

/-- An offset in seconds as it may be written: `Z`, or a sign, hours, minutes and perhaps seconds, with colons everywhere or nowhere. -/
def OffsetText (w : List Char) (o : Int) : Prop :=
  (w = ['Z'] ∧ o = 0) ∨
  ∃ sign sep, (sign = '+' ∨ sign = '-') ∧ (sep = [] ∨ sep = [':']) ∧ ∃ hh mm h m, TwoDigits hh h ∧ TwoDigits mm m ∧ m < 60 ∧
    ((w = sign :: hh ++ sep ++ mm ∧ o = (if sign = '-' then -1 else 1) * ((h : Int) * 3600 + m * 60)) ∨
      ∃ ss s, TwoDigits ss s ∧ s < 60 ∧ w = sign :: hh ++ sep ++ mm ++ sep ++ ss ∧ o = (if sign = '-' then -1 else 1) * ((h : Int) * 3600 + m * 60 + s))

/-- The text `w` at the place of a piece of the format says what `t` has. -/
def Says (t : DateTime) : Item → List Char → Prop
  | .year, w => w.length = 4 ∧ numeral 0 w = some t.date.y
  | .year2, w => ∃ n, TwoDigits w n ∧ t.date.y = if n ≤ 68 then 2000 + n else 1900 + n
  | .month, w => SmallNumber w t.date.m
  | .day, w => SmallNumber w t.date.d ∨ ∃ c, w = [' ', c] ∧ SmallNumber [c] t.date.d
  | .hour, w => SmallNumber w t.h
  | .minute, w => SmallNumber w t.mi
  | .second, w => SmallNumber w t.s
  | .micro, w => 1 ≤ w.length ∧ w.length ≤ 6 ∧ ∃ n, numeral 0 w = some n ∧ t.us * 10 ^ w.length = n * 1000000
  | .zone, w => ∃ o, t.tz = some o ∧ OffsetText w o
  | .lit c, w => ∃ d, w = [d] ∧ sameLetter c d = true
  | .ws _, w => w ≠ [] ∧ ∀ c ∈ w, isSpace c = true

/-- The text consists of pieces that say what `t` has, in the order of the format. -/
def Spelled (t : DateTime) : List Item → List Char → Prop
  | [], cs => cs = []
  | it :: its, cs => ∃ w r, cs = w ++ r ∧ Says t it w ∧ Spelled t its r

/-- No directive is repeated, and only one of `%Y` and `%y` is used. -/
def Once : List Item → Prop
  | [] => True
  | it :: its => ((∀ c, it ≠ .lit c) → (∀ s, it ≠ .ws s) → it ∉ its) ∧ (it = .year → Item.year2 ∉ its) ∧ (it = .year2 → Item.year ∉ its) ∧ Once its

/-! ## Pieces -/

theorem rng_val {lo hi : Nat} (hh : hi ≤ 9) {c : Char} {d : Nat} (h : rng lo hi c = some d) : digitVal c = some d ∧ lo ≤ d ∧ d ≤ hi := by
  unfold rng at h
  split at h
  · rename_i hc
    cases h
    refine ⟨?_, by omega, by omega⟩
    show (if 48 ≤ c.toNat ∧ c.toNat < 48 + 10 then some (c.toNat - 48) else _) = _
    rw [if_pos (by omega)]
  · cases h

theorem cls1_mem {a : Char → Option Nat} (ha : ∀ c d, a c = some d → digitVal c = some d) {cs r : List Char} {n : Nat} (h : (n, r) ∈ cls1 a cs) :
    ∃ c, cs = [c] ++ r ∧ SmallNumber [c] n := by
  cases cs with
  | nil => cases h
  | cons c cs =>
    rw [cls1] at h
    cases hc : a c with
    | none => rw [hc] at h; cases h
    | some d =>
      rw [hc] at h
      have := List.mem_singleton.1 h
      cases this
      refine ⟨c, rfl, .inl rfl, ?_⟩
      rw [numeral, ha c _ hc]
      simp [numeral]

theorem cls2_mem {a b : Char → Option Nat} (ha : ∀ c d, a c = some d → digitVal c = some d) (hb : ∀ c d, b c = some d → digitVal c = some d) {cs r : List Char} {n : Nat}
    (h : (n, r) ∈ cls2 a b cs) : ∃ c d x y, cs = [c, d] ++ r ∧ TwoDigits [c, d] n ∧ a c = some x ∧ b d = some y ∧ n = 10 * x + y := by
  match cs with
  | [] => cases h
  | [_] => cases h
  | c :: d :: cs =>
    rw [cls2] at h
    cases hc : a c with
    | none => rw [hc] at h; cases h
    | some x =>
      cases hd : b d with
      | none => rw [hc, hd] at h; cases h
      | some y =>
        rw [hc, hd] at h
        have := List.mem_singleton.1 h
        cases this
        refine ⟨c, d, x, y, rfl, ⟨rfl, ?_⟩, hc, hd, rfl⟩
        rw [numeral, ha c _ hc]
        dsimp only
        rw [numeral, hb d _ hd]
        simp [numeral]

theorem cls2_small {a b : Char → Option Nat} (ha : ∀ c d, a c = some d → digitVal c = some d) (hb : ∀ c d, b c = some d → digitVal c = some d) {cs r : List Char} {n : Nat}
    (h : (n, r) ∈ cls2 a b cs) : ∃ w, cs = w ++ r ∧ SmallNumber w n := by
  obtain ⟨c, d, x, y, h1, h2, -⟩ := cls2_mem ha hb h
  exact ⟨[c, d], h1, .inr h2.1, h2.2⟩

theorem cls1_small {a : Char → Option Nat} (ha : ∀ c d, a c = some d → digitVal c = some d) {cs r : List Char} {n : Nat} (h : (n, r) ∈ cls1 a cs) : ∃ w, cs = w ++ r ∧ SmallNumber w n := by
  obtain ⟨c, h1, h2⟩ := cls1_mem ha h
  exact ⟨[c], h1, h2⟩

theorem takeDigits_numeral : ∀ {k a : Nat} {cs r : List Char} {n : Nat}, takeDigits k a cs = some (n, r) → ∃ w, cs = w ++ r ∧ w.length = k ∧ numeral a w = some n
  | 0, a, cs, r, n, h => by rw [takeDigits] at h; cases h; exact ⟨[], rfl, rfl, rfl⟩
  | k + 1, a, [], r, n, h => by rw [takeDigits] at h; cases h
  | k + 1, a, c :: cs, r, n, h => by
    rw [takeDigits] at h
    cases hc : digitVal c with
    | none => rw [hc] at h; cases h
    | some d =>
      rw [hc] at h
      obtain ⟨w, h1, h2, h3⟩ := takeDigits_numeral h
      exact ⟨c :: w, by rw [h1]; rfl, by rw [List.length_cons, h2], by rw [numeral, hc]; exact h3⟩

theorem takeAscii_numeral : ∀ {k a : Nat} {cs r : List Char} {n : Nat}, takeAscii k a cs = some (n, r) → ∃ w, cs = w ++ r ∧ w.length = k ∧ numeral a w = some n
  | 0, a, cs, r, n, h => by rw [takeAscii] at h; cases h; exact ⟨[], rfl, rfl, rfl⟩
  | k + 1, a, [], r, n, h => by rw [takeAscii] at h; cases h
  | k + 1, a, c :: cs, r, n, h => by
    rw [takeAscii] at h
    cases hc : rng 0 9 c with
    | none => rw [hc] at h; cases h
    | some d =>
      rw [hc] at h
      obtain ⟨w, h1, h2, h3⟩ := takeAscii_numeral h
      exact ⟨c :: w, by rw [h1]; rfl, by rw [List.length_cons, h2], by rw [numeral, (rng_val (by omega) hc).1]; exact h3⟩

theorem digitAlts_numeral {k n : Nat} {cs r : List Char} (h : (n, r) ∈ digitAlts k cs) : ∃ w, cs = w ++ r ∧ w.length = k ∧ numeral 0 w = some n := by
  unfold digitAlts at h
  cases ht : takeDigits k 0 cs with
  | none => rw [ht] at h; cases h
  | some p =>
    rw [ht] at h
    have := List.mem_singleton.1 h
    subst this
    exact takeDigits_numeral ht

theorem microOf_says {k n : Nat} (hk : 1 ≤ k) (hk' : k ≤ 6) {cs r : List Char} (h : (n, r) ∈ microOf k cs) :
    ∃ w, cs = w ++ r ∧ 1 ≤ w.length ∧ w.length ≤ 6 ∧ ∃ m, numeral 0 w = some m ∧ n * 10 ^ w.length = m * 1000000 := by
  unfold microOf at h
  cases ht : takeAscii k 0 cs with
  | none => rw [ht] at h; cases h
  | some p =>
    obtain ⟨m, r'⟩ := p
    rw [ht] at h
    have := List.mem_singleton.1 h
    cases this
    obtain ⟨w, h1, h2, h3⟩ := takeAscii_numeral ht
    refine ⟨w, h1, by omega, by omega, m, h3, ?_⟩
    rw [h2, Nat.mul_assoc, ← Nat.pow_add, show 6 - k + k = 6 by omega]

theorem wsAlts_mem : ∀ {cs r : List Char}, r ∈ wsAlts cs → ∃ w, cs = w ++ r ∧ w ≠ [] ∧ ∀ c ∈ w, isSpace c = true
  | [], r, h => by cases h
  | c :: cs, r, h => by
    rw [wsAlts] at h
    by_cases hc : isSpace c = true
    · rw [if_pos hc] at h
      rcases List.mem_append.1 h with h | h
      · obtain ⟨w, h1, -, h3⟩ := wsAlts_mem h
        refine ⟨c :: w, by rw [h1]; rfl, nofun, ?_⟩
        intro x hx
        rcases List.mem_cons.1 hx with rfl | hx
        · exact hc
        · exact h3 x hx
      · have := List.mem_singleton.1 h
        subst this
        exact ⟨[c], rfl, nofun, by simpa using hc⟩
    · rw [if_neg hc] at h; cases h

theorem colon_split (cs : List Char) : ((colon cs).1 = true ∧ cs = [':'] ++ (colon cs).2) ∨ ((colon cs).1 = false ∧ cs = [] ++ (colon cs).2) := by
  unfold colon
  split
  · exact .inl ⟨rfl, rfl⟩
  · exact .inr ⟨rfl, rfl⟩

theorem zoneAlts_says {cs r : List Char} {o : Int} (h : (o, r) ∈ zoneAlts cs) (ho : offsetOk (some o) = true) : ∃ w, cs = w ++ r ∧ OffsetText w o := by
  unfold zoneAlts at h
  split at h
  · have := List.mem_singleton.1 h
    cases this
    exact ⟨['Z'], rfl, .inl ⟨rfl, rfl⟩⟩
  · rename_i c r0 _
    by_cases hs : c = '+' ∨ c = '-'
    · rw [if_pos hs] at h
      cases ht : takeDigits 2 0 r0 with
      | none => rw [ht] at h; cases h
      | some p =>
        obtain ⟨hn, r1⟩ := p
        rw [ht] at h
        dsimp only at h
        obtain ⟨hh, e1, e2, e3⟩ := takeDigits_numeral ht
        obtain ⟨⟨m, r2⟩, g1, g2⟩ := List.mem_flatMap.1 h
        have hd : ∀ c d, digitVal c = some d → digitVal c = some d := fun _ _ h => h
        have h5 : ∀ c d, rng 0 5 c = some d → digitVal c = some d := fun c d h => (rng_val (by omega) h).1
        obtain ⟨m1, m2, x, y, f1, f2, f3, f4, f5⟩ := cls2_mem h5 hd g1
        have hm : m < 60 := by
          have := (rng_val (by omega) f3).2.2
          have := digitVal_lt f4
          omega
        have hsep : ∃ sep, (sep = [] ∨ sep = [':']) ∧ r1 = sep ++ (colon r1).2 ∧ (sep = [':'] ↔ (colon r1).1 = true) := by
          rcases colon_split r1 with ⟨k1, k2⟩ | ⟨k1, k2⟩
          · exact ⟨[':'], .inr rfl, k2, by simp [k1]⟩
          · exact ⟨[], .inl rfl, k2, by simp [k1]⟩
        obtain ⟨sep, s1, s2, s3⟩ := hsep
        unfold zoneTail at g2
        dsimp only at g2
        rcases List.mem_append.1 g2 with g2 | g2
        · obtain ⟨⟨s, r3⟩, q1, q2⟩ := List.mem_map.1 g2
          dsimp only at q2
          by_cases hk : (colon r1).1 = (colon r2).1
          · rw [if_pos hk] at q2
            cases q2
            obtain ⟨n1, n2, x', y', j1, j2, j3, j4, j5⟩ := cls2_mem h5 hd q1
            have hsec : s < 60 := by
              have := (rng_val (by omega) j3).2.2
              have := digitVal_lt j4
              omega
            have hr2 : r2 = sep ++ (colon r2).2 := by
              rcases colon_split r2 with ⟨k1, k2⟩ | ⟨k1, k2⟩
              · rw [← hk] at k1; rw [s3.2 k1]; exact k2
              · rw [← hk] at k1
                rcases s1 with s1 | s1
                · rw [s1]; exact k2
                · rw [s3.1 s1] at k1; cases k1
            refine ⟨c :: hh ++ sep ++ [m1, m2] ++ sep ++ [n1, n2], ?_, .inr ⟨c, sep, hs, s1, hh, [m1, m2], hn, m, ⟨e2, e3⟩, f2, hm,
              .inr ⟨[n1, n2], s, j2, hsec, rfl, ?_⟩⟩⟩
            · rw [e1, s2, f1, hr2, j1]; simp
            · unfold zoneSecs; push_cast; rfl
          · rw [if_neg hk] at q2
            cases q2
            cases ho
        · have := List.mem_singleton.1 g2
          cases this
          refine ⟨c :: hh ++ sep ++ [m1, m2], ?_, .inr ⟨c, sep, hs, s1, hh, [m1, m2], hn, m, ⟨e2, e3⟩, f2, hm, .inl ⟨rfl, ?_⟩⟩⟩
          · rw [e1, s2, f1]; simp
          · unfold zoneSecs; push_cast; rw [Int.add_zero]
    · rw [if_neg hs] at h; cases h
  · cases h

theorem readItem_says {t0 t : DateTime} {cs r : List Char} {it : Item} (h : (t, r) ∈ readItem t0 cs it) (ho : it = .zone → offsetOk t.tz = true) :
    ∃ w, cs = w ++ r ∧ Says t it w := by
  have hd : ∀ c d, digitVal c = some d → digitVal c = some d := fun _ _ h => h
  have hr : ∀ {lo hi : Nat}, hi ≤ 9 → ∀ c d, rng lo hi c = some d → digitVal c = some d := fun hh c d h => (rng_val hh h).1
  cases it <;> simp only [readItem, List.mem_map] at h <;> obtain ⟨p, hp, e⟩ := h <;> simp only [Prod.mk.injEq] at e <;> obtain ⟨e, e'⟩ := e <;> subst e <;> subst e'
  case year =>
    obtain ⟨w, h1, h2, h3⟩ := digitAlts_numeral hp
    exact ⟨w, h1, h2, h3⟩
  case year2 =>
    obtain ⟨w, h1, h2, h3⟩ := digitAlts_numeral hp
    exact ⟨w, h1, p.1, ⟨h2, h3⟩, rfl⟩
  case month =>
    rcases List.mem_append.1 hp with hp | hp
    · rcases List.mem_append.1 hp with hp | hp
      · exact cls2_small (hr (by omega)) (hr (by omega)) hp
      · exact cls2_small (hr (by omega)) (hr (by omega)) hp
    · exact cls1_small (hr (by omega)) hp
  case day =>
    have key : (∃ w, cs = w ++ p.2 ∧ SmallNumber w p.1) ∨ ∃ c, cs = [' ', c] ++ p.2 ∧ SmallNumber [c] p.1 := by
      rcases List.mem_append.1 hp with hp | hp
      · left
        rcases List.mem_append.1 hp with hp | hp
        · rcases List.mem_append.1 hp with hp | hp
          · rcases List.mem_append.1 hp with hp | hp
            · exact cls2_small (hr (by omega)) (hr (by omega)) hp
            · exact cls2_small (hr (by omega)) hd hp
          · exact cls2_small (hr (by omega)) (hr (by omega)) hp
        · exact cls1_small (hr (by omega)) hp
      · right
        unfold spaceDigit at hp
        split at hp
        · obtain ⟨c, h1, h2⟩ := cls1_mem (hr (by omega)) hp
          exact ⟨c, by rw [h1]; rfl, h2⟩
        · cases hp
    rcases key with ⟨w, h1, h2⟩ | ⟨c, h1, h2⟩
    · exact ⟨w, h1, .inl h2⟩
    · exact ⟨_, h1, .inr ⟨c, rfl, h2⟩⟩
  case hour =>
    rcases List.mem_append.1 hp with hp | hp
    · rcases List.mem_append.1 hp with hp | hp
      · exact cls2_small (hr (by omega)) (hr (by omega)) hp
      · exact cls2_small (hr (by omega)) hd hp
    · exact cls1_small hd hp
  case minute =>
    rcases List.mem_append.1 hp with hp | hp
    · exact cls2_small (hr (by omega)) hd hp
    · exact cls1_small hd hp
  case second =>
    rcases List.mem_append.1 hp with hp | hp
    · rcases List.mem_append.1 hp with hp | hp
      · exact cls2_small (hr (by omega)) (hr (by omega)) hp
      · exact cls2_small (hr (by omega)) hd hp
    · exact cls1_small hd hp
  case micro =>
    unfold microAlts at hp
    simp only [List.mem_append] at hp
    rcases hp with ((((hp | hp) | hp) | hp) | hp) | hp <;> exact microOf_says (by omega) (by omega) hp
  case zone =>
    obtain ⟨w, h1, h2⟩ := zoneAlts_says hp (ho rfl)
    exact ⟨w, h1, _, rfl, h2⟩
  case lit c =>
    cases cs with
    | nil => cases hp
    | cons d cs =>
      rw [litAlts] at hp
      by_cases hs : sameLetter c d = true
      · rw [if_pos hs] at hp
        have := List.mem_singleton.1 hp
        subst this
        exact ⟨[d], rfl, d, rfl, hs⟩
      · rw [if_neg hs] at hp; cases hp
  case ws =>
    obtain ⟨w, h1, h2, h3⟩ := wsAlts_mem hp
    exact ⟨w, h1, h2, h3⟩

/-- What a piece says depends on its component only. -/
theorem says_keep {t0 t : DateTime} {it : Item} {its : List Item} {cs r w : List Char} (h : readItems its t0 cs = some (t, r)) (ho : Once (it :: its)) (hs : Says t0 it w) : Says t it w := by
  obtain ⟨a1, -, a3, a4, a5, a6, a7, a8, a9⟩ := readItems_keeps its t0 t cs r h
  obtain ⟨o1, o2, o3, -⟩ := ho
  cases it with
  | year => show _ ∧ _; rw [a1 (o1 nofun nofun) (o2 rfl)]; exact hs
  | year2 => show ∃ _, _; rw [a1 (o3 rfl) (o1 nofun nofun)]; exact hs
  | month => show SmallNumber _ _; rw [a3 (o1 nofun nofun)]; exact hs
  | day => show _ ∨ _; rw [a4 (o1 nofun nofun)]; exact hs
  | hour => show SmallNumber _ _; rw [a5 (o1 nofun nofun)]; exact hs
  | minute => show SmallNumber _ _; rw [a6 (o1 nofun nofun)]; exact hs
  | second => show SmallNumber _ _; rw [a7 (o1 nofun nofun)]; exact hs
  | micro => show _ ∧ _; rw [a8 (o1 nofun nofun)]; exact hs
  | zone => show ∃ _, _; rw [a9 (o1 nofun nofun)]; exact hs
  | lit c => exact hs
  | ws s => exact hs

theorem readItems_spelled : ∀ (its : List Item) (t0 t : DateTime) (cs : List Char), Once its → readItems its t0 cs = some (t, []) → offsetOk t.tz = true → Spelled t its cs
  | [], t0, t, cs, _, h, _ => by rw [readItems] at h; cases h; rfl
  | it :: its, t0, t, cs, ho, h, hz => by
    obtain ⟨t1, r1, h1, h2⟩ := readItems_cons h
    have hz1 : it = .zone → offsetOk t1.tz = true := by
      intro hi
      subst hi
      rw [← (readItems_keeps its t1 t r1 [] h2).2.2.2.2.2.2.2.2 (ho.1 nofun nofun)]
      exact hz
    obtain ⟨w, e1, e2⟩ := readItem_says h1 hz1
    exact ⟨w, r1, e1, says_keep h2 ho e2, readItems_spelled its t1 t r1 ho.2.2.2 h2 hz⟩

/-- **C98, what is read.**  If a text is read with a format (no directive of which is repeated), it consists of pieces in the order of the format, and each piece says what the value has: numbers
in decimal digits, a fraction of one to six digits, an offset, the very characters of the format up to the case of letters, and white space for white space. -/
theorem C98_spelled (its : List Item) (ho : Once its) (s : List Char) (t : DateTime) (h : strptime its s = some t) : Spelled t its s := by
  obtain ⟨h1, h2, -⟩ := strptime_some h
  exact readItems_spelled its _ t s ho h1 h2

/-- **C98, what is read**, for fields: the value that a `DateTimeType` with formats takes from a text is the one that the first format that reads it gives, adjusted by the settings for zones. -/
theorem C98_datetime_reads (c : DTCfg) (formats : List (List Item)) (ser : Option (List Item)) (hf : formats ≠ []) (s : String) (iapp : Val) (v : Val)
    (h : (dateTimeTypeF c formats ser).toNative iapp (.str s) = .ok v) :
    ∃ pre f post t, formats = pre ++ f :: post ∧ (∀ g ∈ pre, strptime g s.toList = none) ∧ strptime f s.toList = some t ∧ (Once f → Spelled t f s.toList) ∧
      toVal (convParsed (withFormats c formats) t) = .ok v := by
  have hw : (withFormats c formats).parse = some (parseFormats formats) := by
    unfold withFormats
    rw [if_neg (by simpa using hf)]
  have h : dtNative (withFormats c formats) (.str s) = .ok v := h
  rw [dtNative] at h
  · unfold dtParse at h
    rw [hw] at h
    dsimp only at h
    cases hp : parseFormats formats (.str s) with
    | none => rw [hp] at h; cases h
    | some t =>
      rw [hp] at h
      obtain ⟨pre, f, post, e1, e2, e3⟩ := (parseFormats_iff formats s t).1 hp
      exact ⟨pre, f, post, t, e1, e2, e3, fun ho => C98_spelled f ho _ t e3, h⟩
  · nofun

/-! ## The hypotheses are met -/

/-- A fraction of two digits. -/
example : strptime [.second, .lit '.', .micro] "7.05".toList = some ⟨⟨1900, 1, 1⟩, 0, 0, 7, 50000, none⟩ := by decide +kernel
example : Once [.second, .lit '.', .micro] := by simp [Once]
example : Once sampleFormat := by simp [Once, sampleFormat]

end Verif.Types
