import Verif.Props.Web

/-!
# C79: URLs
-/
namespace Verif.Types
open Verif.Py
open Verif.Py.Re (chr opt rep upTo range plus)

/-! ## What a URL is -/

/-- The special characters of URLs (RFC 3986: delimiters and unreserved marks, and the percent sign). -/
def urlSpecials : List Char := ":/?#[]@!$&'()*+,;=-_.~%".toList

/-- A character that may stand in a part of a URL in which the special characters of the text `ok` are allowed: no control character or space, none of
the marks that are never allowed, and no special character outside `ok`. (Letters of any alphabet are allowed, and so is the backslash.) -/
def UrlChar (ok : String) (c : Char) : Prop :=
  32 < c.toNat ∧ ¬ (0x7F ≤ c.toNat ∧ c.toNat ≤ 0x9F) ∧ c ∉ "<>{}|\"`^".toList ∧ (c ∈ urlSpecials → c ∈ ok.toList)

/-- A text that spells `low` in any mixture of cases. -/
def Spells (low : String) (w : List Char) : Prop := w.map Char.toLower = low.toList

/-- Nothing, or a user and an `@`. -/
def IsUserinfo (u : List Char) : Prop := u = [] ∨ ∃ n, n ≠ [] ∧ (∀ c ∈ n, UrlChar "!$&'()*+,;=-_.~%:" c) ∧ u = n ++ ['@']

/-- Nothing, or a colon and two to five digits. -/
def IsPort (w : List Char) : Prop := w = [] ∨ ∃ d, 2 ≤ d.length ∧ d.length ≤ 5 ∧ (∀ c ∈ d, '0' ≤ c ∧ c ≤ '9') ∧ w = ':' :: d

/-- Nothing, or a mark and a text whose special characters are in `ok`. -/
def IsPart (mark : Char) (ok : String) (w : List Char) : Prop := w = [] ∨ ∃ t, (∀ c ∈ t, UrlChar ok c) ∧ w = mark :: t

/-- Path, query and fragment. -/
def IsPathEtc (t : List Char) : Prop :=
  ∃ pa qu fr, IsPart '/' "!$&'()*+,;=-_.~%:@/" pa ∧ IsPart '?' "!$&'()*+,;=-_.~%:@/?[]" qu ∧ IsPart '#' "!$&'()*+,;=-_.~%:@/?" fr ∧
    t = pa ++ (qu ++ fr)

/-- A top-level domain: two or more letters, or `xn--` and four or more letters and digits. -/
def IsTld (l : List Char) : Prop :=
  (2 ≤ l.length ∧ ∀ c ∈ l, isLetterI c = true) ∨
  ∃ p t, Spells "xn--" p ∧ 4 ≤ t.length ∧ (∀ c ∈ t, isLetterI c = true ∨ '0' ≤ c ∧ c ≤ '9') ∧ l = p ++ t

/-- A label of a host name: 1 to 63 characters, no dot, no hyphen at either end. -/
def IsHostLabel (l : List Char) : Prop := 1 ≤ l.length ∧ l.length ≤ 63 ∧ '.' ∉ l ∧ l.head? ≠ some '-' ∧ l.getLast? ≠ some '-'

/-- A host name: labels separated by dots, at most 253 characters, and possibly one more dot; if it has to be fully qualified, at least two labels the
last of which is a top-level domain. -/
def IsHostname (fqdn : Bool) (a : List Char) : Prop :=
  ∃ ls, ls ≠ [] ∧ (∀ l ∈ ls, IsHostLabel l) ∧ (joinSep '.' ls).length ≤ 253 ∧ (a = joinSep '.' ls ∨ a = joinSep '.' ls ++ ['.']) ∧
    (fqdn = true → 2 ≤ ls.length ∧ ∃ t, ls.getLast? = some t ∧ IsTld t)

/-- A host: a bracketed IPv6 address of hexadecimal digits and colons, an IPv4 address, or a name without special characters other than dots and hyphens
whose ASCII form is a host name. -/
def IsHost (idna : List Char → Option (List Char)) (fqdn : Bool) (h : List Char) : Prop :=
  (∃ a, IsIPv6 a ∧ (∀ c ∈ a, isHex c = true ∨ c = ':') ∧ h = '[' :: a ++ [']']) ∨ IsIPv4 h ∨
  (h ≠ [] ∧ (∀ c ∈ h, UrlChar ".-" c) ∧ ∃ a, ((∀ c ∈ h, c.toNat < 128) ∧ a = h ∨ (∃ c ∈ h, 128 ≤ c.toNat) ∧ idna h = some a) ∧ IsHostname fqdn a)

/-- An HTTP URL. -/
def IsUrl (idna : List Char → Option (List Char)) (fqdn : Bool) (w : List Char) : Prop :=
  ∃ s u h p t, (Spells "http" s ∨ Spells "https" s) ∧ IsUserinfo u ∧ IsHost idna fqdn h ∧ IsPort p ∧ IsPathEtc t ∧
    w = s ++ ("://".toList ++ (u ++ (h ++ (p ++ t))))

/-! ## The classes -/

theorem contains_iff (l : List Char) (c : Char) : l.contains c = true ↔ c ∈ l := by simp

theorem chrcls_iff (ok : List Char) (s : String) (h : ok.Perm s.toList) (c : Char) : chrcls ok c = true ↔ UrlChar s c := by
  unfold chrcls UrlChar isUnsafe
  have e : (ok.contains c = true) ↔ c ∈ s.toList := by rw [contains_iff]; exact h.mem_iff
  have e2 : validChars.contains c = true ↔ c ∈ urlSpecials := by rw [contains_iff]; rfl
  generalize ok.contains c = b1 at *
  generalize validChars.contains c = b2 at *
  have e3 := contains_iff "<>{}|\"`^".toList c
  generalize "<>{}|\"`^".toList.contains c = b3 at *
  rw [← e, ← e2, ← e3]
  cases b1 <;> cases b2 <;> cases b3 <;> simp <;> omega

theorem user_iff (c : Char) : isUserChar c = true ↔ UrlChar "!$&'()*+,;=-_.~%:" c := chrcls_iff _ _ (by decide) c
theorem host_iff (c : Char) : isHostChar c = true ↔ UrlChar ".-" c := chrcls_iff _ _ (by decide) c
theorem path_iff (c : Char) : isPathChar c = true ↔ UrlChar "!$&'()*+,;=-_.~%:@/" c := chrcls_iff _ _ (by decide +kernel) c
theorem query_iff (c : Char) : isQueryChar c = true ↔ UrlChar "!$&'()*+,;=-_.~%:@/?[]" c := chrcls_iff _ _ (by decide +kernel) c
theorem frag_iff (c : Char) : isFragChar c = true ↔ UrlChar "!$&'()*+,;=-_.~%:@/?" c := chrcls_iff _ _ (by decide +kernel) c

theorem digit_iff (c : Char) : isDigitC c = true ↔ '0' ≤ c ∧ c ≤ '9' := by
  rw [isDigitC, decide_eq_true_iff]
  rfl

/-! ## The parts of the expression -/

/-- No named group is one of those that are looked up. -/
def Other (cs : List (String × List Char)) : Prop :=
  ∀ n ∈ ["scheme", "host6", "host4", "hostn"], groupOf cs n = none

theorem Other.nil : Other [] := fun _ _ => rfl

theorem groupOf_append (a b : List (String × List Char)) (n : String) : groupOf (a ++ b) n = (groupOf a n).or (groupOf b n) := by
  induction a with
  | nil => rfl
  | cons x a ih =>
    obtain ⟨k, v⟩ := x
    simp only [List.cons_append, groupOf, Dict.get?] at *
    split
    · rfl
    · exact ih

theorem Other.append {a b} (ha : Other a) (hb : Other b) : Other (a ++ b) := by
  intro n hn
  rw [groupOf_append, ha n hn, hb n hn]; rfl

theorem Other.cons {n : String} (hn : n ∉ ["scheme", "host6", "host4", "hostn"]) (w : List Char) {a} (ha : Other a) : Other ((n, w) :: a) := by
  intro m hm
  have : n ≠ m := fun h => hn (h ▸ hm)
  simp only [groupOf, Dict.get?, this, if_false]
  exact ha m hm

/-- The marks before a group. -/
theorem means_chr (c : Char) : (chr c).Means fun w => w = [c] := (Re.means_pure _ rfl).congr (Re.L_chr _)

/-- What an expression passes and records, in two directions: every match passes a text of `Q` and records groups of `O`, and each text of `Q` can be
passed. -/
structure ReHas (r : Re) (Q : List Char → Prop) (O : List Char → List (String × List Char) → Prop) : Prop where
  sound : ∀ x y, y ∈ r.run x → ∃ w cs, Q w ∧ O w cs ∧ x.StepC w cs y
  complete : ∀ x w rest, Q w → x.rest = w ++ rest → ∃ y ∈ r.run x, y.rest = rest

theorem has_of {r : Re} {P Q O} (h : r.MeansC P) (h1 : ∀ w cs, P w cs → Q w ∧ O w cs) (h2 : ∀ w, Q w → ∃ cs, P w cs) : ReHas r Q O := by
  constructor
  · intro x y hy
    obtain ⟨w, cs, hp, hs⟩ := (h x y).1 hy
    exact ⟨w, cs, (h1 w cs hp).1, (h1 w cs hp).2, hs⟩
  · intro x w rest hq hr
    obtain ⟨cs, hp⟩ := h2 w hq
    exact ⟨⟨w.reverse ++ x.before, rest, cs ++ x.caps⟩, (h x _).2 ⟨w, cs, hp, hr, rfl, rfl⟩, rfl⟩

/-- The scheme, the mark and the user. -/
def IsStart (w : List Char) : Prop := ∃ s u, (s ≠ [] ∧ ∀ c ∈ s, isSchemeChar c = true) ∧ IsUserinfo u ∧ w = s ++ ("://".toList ++ u)

theorem start_has : ReHas urlStart IsStart fun w cs => ∃ s u us, (s ≠ [] ∧ ∀ c ∈ s, isSchemeChar c = true) ∧ IsUserinfo u ∧ Other us ∧
    w = s ++ ("://".toList ++ u) ∧ cs = us ++ [("scheme", s)] := by
  have h1 := (((Re.means_pure (plus (.cls isSchemeChar)) rfl).congr (Re.L_plus_cls _)).groups).grp "scheme"
  have h2 := (((Re.means_pure (plus (.cls isUserChar)) rfl).congr (Re.L_plus_cls _)).groups).grp "user"
  have ho := ((h2.seq (means_chr '@').groups)).opt
  refine has_of (h1.seq ((means_chr ':').groups.seq ((means_chr '/').groups.seq ((means_chr '/').groups.seq ho)))) ?_ ?_
  · rintro w cs ⟨s, v, c1, c2, ⟨c, ⟨hs, rfl⟩, rfl⟩, ⟨_, v2, _, c3, ⟨rfl, rfl⟩, ⟨_, v3, _, c4, ⟨rfl, rfl⟩, ⟨_, v4, _, c5, ⟨rfl, rfl⟩, hu, rfl, rfl⟩, rfl, rfl⟩, rfl, rfl⟩, rfl, rfl⟩
    rcases hu with ⟨n, _, _, _, ⟨c, ⟨hn, rfl⟩, rfl⟩, ⟨rfl, rfl⟩, rfl, rfl⟩ | ⟨rfl, rfl⟩
    · have hu : IsUserinfo (n ++ ['@']) := Or.inr ⟨n, hn.1, fun c hc => (user_iff c).1 (hn.2 c hc), rfl⟩
      refine ⟨⟨s, _, hs, hu, rfl⟩, s, n ++ ['@'], [("user", n)], hs, hu, ?_, rfl, rfl⟩
      exact Other.cons (by decide) _ Other.nil
    · exact ⟨⟨s, [], hs, Or.inl rfl, rfl⟩, s, [], [], hs, Or.inl rfl, Other.nil, rfl, rfl⟩
  · rintro w ⟨s, u, hs, hu, rfl⟩
    rcases hu with rfl | ⟨n, hn, hc, rfl⟩
    · exact ⟨_, s, _, _, _, ⟨_, ⟨hs, rfl⟩, rfl⟩, ⟨_, _, _, _, ⟨rfl, rfl⟩, ⟨_, _, _, _, ⟨rfl, rfl⟩, ⟨_, _, _, _, ⟨rfl, rfl⟩, Or.inr ⟨rfl, rfl⟩, rfl, rfl⟩, rfl, rfl⟩, rfl, rfl⟩, rfl, rfl⟩
    · exact ⟨_, s, _, _, _, ⟨_, ⟨hs, rfl⟩, rfl⟩, ⟨_, _, _, _, ⟨rfl, rfl⟩, ⟨_, _, _, _, ⟨rfl, rfl⟩, ⟨_, _, _, _, ⟨rfl, rfl⟩,
        Or.inl ⟨_, _, _, _, ⟨_, ⟨⟨hn, fun c h => (user_iff c).2 (hc c h)⟩, rfl⟩, rfl⟩, ⟨rfl, rfl⟩, rfl, rfl⟩, rfl, rfl⟩, rfl, rfl⟩, rfl, rfl⟩, rfl, rfl⟩

theorem host6_has : ReHas urlHost6 (fun w => ∃ a, a ≠ [] ∧ (∀ c ∈ a, isHost6Char c = true) ∧ w = '[' :: a ++ [']'])
    fun w cs => ∃ a, w = '[' :: a ++ [']'] ∧ cs = [("host6", a)] := by
  have h1 := (((Re.means_pure (plus (.cls isHost6Char)) rfl).congr (Re.L_plus_cls _)).groups).grp "host6"
  refine has_of ((means_chr '[').groups.seq (h1.seq (means_chr ']').groups)) ?_ ?_
  · rintro w cs ⟨_, _, _, _, ⟨rfl, rfl⟩, ⟨a, _, _, _, ⟨_, ⟨ha, rfl⟩, rfl⟩, ⟨rfl, rfl⟩, rfl, rfl⟩, rfl, rfl⟩
    exact ⟨⟨a, ha.1, ha.2, rfl⟩, a, rfl, rfl⟩
  · rintro w ⟨a, h1, h2, rfl⟩
    exact ⟨_, _, _, _, _, ⟨rfl, rfl⟩, ⟨a, _, _, _, ⟨_, ⟨⟨h1, h2⟩, rfl⟩, rfl⟩, ⟨rfl, rfl⟩, rfl, rfl⟩, rfl, rfl⟩

theorem host4_has : ReHas urlHost4 IsIPv4 fun w cs => cs = [("host4", w)] := by
  have h1 := (((Re.means_pure ipv4 (by decide)).congr ipv4_iff).groups).grp "host4"
  refine has_of h1 ?_ ?_
  · rintro w cs ⟨_, ⟨h, rfl⟩, rfl⟩; exact ⟨h, rfl⟩
  · intro w h; exact ⟨_, _, ⟨h, rfl⟩, rfl⟩

theorem hostn_has : ReHas urlHostN (fun w => w ≠ [] ∧ ∀ c ∈ w, isHostChar c = true) fun w cs => cs = [("hostn", w)] := by
  have h1 := (((Re.means_pure (plus (.cls isHostChar)) rfl).congr (Re.L_plus_cls _)).groups).grp "hostn"
  refine has_of h1 ?_ ?_
  · rintro w cs ⟨_, ⟨h, rfl⟩, rfl⟩; exact ⟨h, rfl⟩
  · intro w h; exact ⟨_, _, ⟨h, rfl⟩, rfl⟩

/-- Port, path, query and fragment. -/
def IsUrlTail (w : List Char) : Prop := ∃ p t, IsPort p ∧ IsPathEtc t ∧ w = p ++ t

theorem has_seq {a b : Re} {P Q : List Char → Prop} (ha : ReHas a P fun _ cs => Other cs) (hb : ReHas b Q fun _ cs => Other cs) :
    ReHas (.seq a b) (fun w => ∃ u v, P u ∧ Q v ∧ w = u ++ v) fun _ cs => Other cs := by
  constructor
  · intro x y hy
    simp only [Re.run, List.mem_flatMap] at hy
    obtain ⟨z, hz, hy⟩ := hy
    obtain ⟨u, c1, hu, o1, s1⟩ := ha.sound x z hz
    obtain ⟨v, c2, hv, o2, s2⟩ := hb.sound z y hy
    exact ⟨u ++ v, c2 ++ c1, ⟨u, v, hu, hv, rfl⟩, o2.append o1, s1.trans s2⟩
  · rintro x w rest ⟨u, v, hu, hv, rfl⟩ hr
    obtain ⟨z, hz, hz'⟩ := ha.complete x u (v ++ rest) hu (by rw [hr, List.append_assoc])
    obtain ⟨y, hy, hy'⟩ := hb.complete z v rest hv hz'
    exact ⟨y, by simp only [Re.run, List.mem_flatMap]; exact ⟨z, hz, hy⟩, hy'⟩

theorem port_has : ReHas (opt (.seq (chr ':') (.grp "port" (range 2 5 (.cls isDigitC))))) IsPort fun _ cs => Other cs := by
  have hp := ((means_chr ':').groups.seq ((((Re.means_pure (range 2 5 (.cls isDigitC)) rfl).congr
    (Re.L_range_cls _ _ _ (by omega))).groups).grp "port")).opt
  refine has_of hp ?_ ?_
  · rintro w cs (⟨_, d, _, _, ⟨rfl, rfl⟩, ⟨_, ⟨⟨ha, hb, hc⟩, rfl⟩, rfl⟩, rfl, rfl⟩ | ⟨rfl, rfl⟩)
    · exact ⟨Or.inr ⟨d, ha, hb, fun c h => (digit_iff c).1 (hc c h), rfl⟩, Other.append (Other.cons (by decide) _ Other.nil) Other.nil⟩
    · exact ⟨Or.inl rfl, Other.nil⟩
  · rintro w (rfl | ⟨d, ha, hb, hc, rfl⟩)
    · exact ⟨_, Or.inr ⟨rfl, rfl⟩⟩
    · exact ⟨_, Or.inl ⟨_, d, _, _, ⟨rfl, rfl⟩, ⟨_, ⟨⟨ha, hb, fun c h => (digit_iff c).2 (hc c h)⟩, rfl⟩, rfl⟩, rfl, rfl⟩⟩

theorem part_has (mark : Char) (p : Char → Bool) (ok name : String) (hp : ∀ c, p c = true ↔ UrlChar ok c)
    (hn : name ∉ ["scheme", "host6", "host4", "hostn"]) :
    ReHas (opt (.seq (chr mark) (.grp name (.star (.cls p))))) (IsPart mark ok) fun _ cs => Other cs := by
  have hq := ((means_chr mark).groups.seq ((((Re.means_pure (Re.star (.cls p)) rfl).congr (Re.L_star_cls _)).groups).grp name)).opt
  refine has_of hq ?_ ?_
  · rintro w cs (⟨_, d, _, _, ⟨rfl, rfl⟩, ⟨_, ⟨hd, rfl⟩, rfl⟩, rfl, rfl⟩ | ⟨rfl, rfl⟩)
    · exact ⟨Or.inr ⟨d, fun c h => (hp c).1 (hd c h), rfl⟩, Other.append (Other.cons hn _ Other.nil) Other.nil⟩
    · exact ⟨Or.inl rfl, Other.nil⟩
  · rintro w (rfl | ⟨d, hd, rfl⟩)
    · exact ⟨_, Or.inr ⟨rfl, rfl⟩⟩
    · exact ⟨_, Or.inl ⟨_, d, _, _, ⟨rfl, rfl⟩, ⟨_, ⟨fun c h => (hp c).2 (hd c h), rfl⟩, rfl⟩, rfl, rfl⟩⟩

theorem path_has : ReHas (opt (.grp "path" (.seq (chr '/') (.star (.cls isPathChar))))) (IsPart '/' "!$&'()*+,;=-_.~%:@/") fun _ cs => Other cs := by
  have ha := (((((means_chr '/').seq ((Re.means_pure (Re.star (.cls isPathChar)) rfl).congr (Re.L_star_cls _)))).groups).grp "path").opt
  refine has_of ha ?_ ?_
  · rintro w cs (⟨_, ⟨⟨_, t, rfl, ht, rfl⟩, rfl⟩, rfl⟩ | ⟨rfl, rfl⟩)
    · exact ⟨Or.inr ⟨t, fun c h => (path_iff c).1 (ht c h), rfl⟩, Other.cons (by decide) _ Other.nil⟩
    · exact ⟨Or.inl rfl, Other.nil⟩
  · rintro w (rfl | ⟨d, hd, rfl⟩)
    · exact ⟨_, Or.inr ⟨rfl, rfl⟩⟩
    · exact ⟨_, Or.inl ⟨_, ⟨⟨_, d, rfl, fun c h => (path_iff c).2 (hd c h), rfl⟩, rfl⟩, rfl⟩⟩

theorem ReHas.congr {r : Re} {P Q : List Char → Prop} {O} (h : ReHas r P O) (hpq : ∀ w, P w ↔ Q w) : ReHas r Q O := by
  have : P = Q := funext fun w => propext (hpq w)
  exact this ▸ h

theorem tail_has : ReHas urlTail IsUrlTail fun _ cs => Other cs := by
  refine (has_seq port_has (has_seq path_has (has_seq (part_has '?' _ _ "query" query_iff (by decide))
    (part_has '#' _ _ "frag" frag_iff (by decide))))).congr fun w => ?_
  unfold IsUrlTail IsPathEtc
  constructor
  · rintro ⟨p, _, hp, ⟨pa, _, ha, ⟨q, f, hq, hf, rfl⟩, rfl⟩, rfl⟩
    exact ⟨p, _, hp, ⟨pa, q, f, ha, hq, hf, rfl⟩, rfl⟩
  · rintro ⟨p, _, hp, ⟨pa, q, f, ha, hq, hf, rfl⟩, rfl⟩
    exact ⟨p, _, hp, ⟨pa, _, ha, ⟨q, f, hq, hf, rfl⟩, rfl⟩, rfl⟩

/-! ## The parts of a URL are unique -/

theorem split_unique {p : Char → Prop} : ∀ (a b a' b' : List Char), a ++ b = a' ++ b' → (∀ c ∈ a, p c) → (∀ c ∈ a', p c) →
    (∀ c, b.head? = some c → ¬ p c) → (∀ c, b'.head? = some c → ¬ p c) → a = a' ∧ b = b' := by
  intro a
  induction a with
  | nil =>
    intro b a' b' h _ h2 h3 _
    cases a' with
    | nil => exact ⟨rfl, h⟩
    | cons c a' =>
      simp only [List.nil_append, List.cons_append] at h
      subst h
      exact absurd (h2 c (by simp)) (h3 c rfl)
  | cons c a ih =>
    intro b a' b' h h1 h2 h3 h4
    cases a' with
    | nil =>
      simp only [List.nil_append, List.cons_append] at h
      subst h
      exact absurd (h1 c (by simp)) (h4 c rfl)
    | cons d a' =>
      simp only [List.cons_append, List.cons.injEq] at h
      obtain ⟨rfl, h⟩ := h
      obtain ⟨h5, h6⟩ := ih b a' b' h (fun x hx => h1 x (by simp [hx])) (fun x hx => h2 x (by simp [hx])) h3 h4
      exact ⟨by rw [h5], h6⟩

instance (ok : String) (c : Char) : Decidable (UrlChar ok c) := by unfold UrlChar; infer_instance

/-- What the expression takes for a host. -/
def HostText (h : List Char) : Prop :=
  (∃ a, a ≠ [] ∧ (∀ c ∈ a, isHost6Char c = true) ∧ h = '[' :: a ++ [']']) ∨ (h ≠ [] ∧ ∀ c ∈ h, isHostChar c = true)

/-- The characters that end the authority part. -/
def Inner (c : Char) : Prop := c ≠ '/' ∧ c ≠ '?' ∧ c ≠ '#' ∧ c ≠ '\n'

theorem ne_of_not {p : Char → Prop} {c d : Char} (h : p c) (hd : ¬ p d) : c ≠ d := fun e => hd (e ▸ h)

theorem not_host6 : ∀ d ∈ ['/', '?', '#', '\n', '@', ']'], ¬ (isHost6Char d = true) := by decide
theorem not_host : ∀ d ∈ ['/', '?', '#', '\n', '@', ']', '[', ':'], ¬ (isHostChar d = true) := by decide +kernel
theorem not_user : ∀ d ∈ ['/', '?', '#', '\n', '@'], ¬ (isUserChar d = true) := by decide +kernel

theorem hostText_chars {h : List Char} (hh : HostText h) : ∀ c ∈ h, Inner c ∧ c ≠ '@' := by
  intro c hc
  rcases hh with ⟨a, -, ha, rfl⟩ | ⟨-, ha⟩
  · simp only [List.cons_append, List.mem_cons, List.mem_append, List.not_mem_nil, or_false] at hc
    rcases hc with rfl | hc | rfl
    · unfold Inner; decide
    · have := ha c hc
      exact ⟨⟨ne_of_not (p := fun c => isHost6Char c = true) this (not_host6 _ (by simp)), ne_of_not (p := fun c => isHost6Char c = true) this (not_host6 _ (by simp)),
        ne_of_not (p := fun c => isHost6Char c = true) this (not_host6 _ (by simp)), ne_of_not (p := fun c => isHost6Char c = true) this (not_host6 _ (by simp))⟩,
        ne_of_not (p := fun c => isHost6Char c = true) this (not_host6 _ (by simp))⟩
    · unfold Inner; decide
  · have := ha c hc
    exact ⟨⟨ne_of_not (p := fun c => isHostChar c = true) this (not_host _ (by simp)), ne_of_not (p := fun c => isHostChar c = true) this (not_host _ (by simp)),
      ne_of_not (p := fun c => isHostChar c = true) this (not_host _ (by simp)), ne_of_not (p := fun c => isHostChar c = true) this (not_host _ (by simp))⟩,
      ne_of_not (p := fun c => isHostChar c = true) this (not_host _ (by simp))⟩

theorem port_chars {q : List Char} (hq : IsPort q) : ∀ c ∈ q, Inner c ∧ c ≠ '@' := by
  rcases hq with rfl | ⟨d, -, -, hd, rfl⟩
  · simp
  · intro c hc
    rcases List.mem_cons.1 hc with rfl | hc
    · unfold Inner; decide
    · have := (digit_iff c).2 (hd c hc)
      have h2 : ∀ e ∈ ['/', '?', '#', '\n', '@'], ¬ (isDigitC e = true) := by decide
      exact ⟨⟨ne_of_not (p := fun c => isDigitC c = true) this (h2 _ (by simp)), ne_of_not (p := fun c => isDigitC c = true) this (h2 _ (by simp)),
        ne_of_not (p := fun c => isDigitC c = true) this (h2 _ (by simp)), ne_of_not (p := fun c => isDigitC c = true) this (h2 _ (by simp))⟩,
        ne_of_not (p := fun c => isDigitC c = true) this (h2 _ (by simp))⟩

theorem user_chars {u : List Char} (hu : IsUserinfo u) : ∀ c ∈ u, Inner c := by
  rcases hu with rfl | ⟨n, -, hn, rfl⟩
  · simp
  · intro c hc
    rcases List.mem_append.1 hc with hc | hc
    · have := (user_iff c).2 (hn c hc)
      exact ⟨ne_of_not (p := fun c => isUserChar c = true) this (not_user _ (by simp)), ne_of_not (p := fun c => isUserChar c = true) this (not_user _ (by simp)),
        ne_of_not (p := fun c => isUserChar c = true) this (not_user _ (by simp)), ne_of_not (p := fun c => isUserChar c = true) this (not_user _ (by simp))⟩
    · rw [List.mem_singleton] at hc; subst hc; unfold Inner; decide

theorem pathEtc_head {t : List Char} (ht : IsPathEtc t) {e : List Char} (he : e = [] ∨ e = ['\n']) : ∀ c, (t ++ e).head? = some c → ¬ Inner c := by
  intro c
  obtain ⟨pa, qu, fr, h1, h2, h3, rfl⟩ := ht
  unfold Inner
  rcases h1 with rfl | ⟨_, -, rfl⟩
  · rcases h2 with rfl | ⟨_, -, rfl⟩
    · rcases h3 with rfl | ⟨_, -, rfl⟩
      · rcases he with rfl | rfl
        · simp
        · simp; rintro rfl; decide
      · simp; rintro rfl; decide
    · simp; rintro rfl; decide
  · simp; rintro rfl; decide

theorem port_head {q : List Char} (hq : IsPort q) : ∀ c, q.head? = some c → c = ':' := by
  rcases hq with rfl | ⟨d, -, -, -, rfl⟩
  · simp
  · simp

theorem userinfo_unique {u r u' r' : List Char} (hu : IsUserinfo u) (hu' : IsUserinfo u') (hr : ∀ c ∈ r, c ≠ '@') (hr' : ∀ c ∈ r', c ≠ '@')
    (e : u ++ r = u' ++ r') : u = u' ∧ r = r' := by
  rcases hu with rfl | ⟨n, -, hn, rfl⟩
  · rcases hu' with rfl | ⟨n', -, hn', rfl⟩
    · exact ⟨rfl, e⟩
    · have : '@' ∈ r := by
        simp only [List.nil_append] at e; rw [e]; simp
      exact absurd rfl (hr _ this)
  · rcases hu' with rfl | ⟨n', -, hn', rfl⟩
    · have : '@' ∈ r' := by
        simp only [List.nil_append] at e; rw [← e]; simp
      exact absurd rfl (hr' _ this)
    · have nu : ∀ {n : List Char}, (∀ c ∈ n, UrlChar "!$&'()*+,;=-_.~%:" c) → ∀ c ∈ n, c ≠ '@' := fun hn c hc =>
        ne_of_not (p := fun c => isUserChar c = true) ((user_iff c).2 (hn c hc)) (not_user _ (by simp))
      rw [List.append_assoc, List.append_assoc] at e
      obtain ⟨h1, h2⟩ := split_unique (p := fun c => c ≠ '@') n _ n' _ e (nu hn) (nu hn') (by simp) (by simp)
      subst h1
      exact ⟨rfl, by simpa using h2⟩

theorem host_unique {h q h' q' : List Char} (hh : HostText h) (hh' : HostText h') (hq : IsPort q) (hq' : IsPort q') (e : h ++ q = h' ++ q') :
    h = h' ∧ q = q' := by
  have hb : ∀ h : List Char, h ≠ [] → (∀ c ∈ h, isHostChar c = true) → ∀ a q q', h ++ q = '[' :: a ++ [']'] ++ q' → False := by
    intro h hne hc a q q' e
    cases h with
    | nil => exact hne rfl
    | cons c h =>
      simp only [List.cons_append, List.cons.injEq] at e
      exact not_host '[' (by simp) (e.1 ▸ hc c (by simp))
  rcases hh with ⟨a, -, ha, rfl⟩ | ⟨hne, ha⟩
  · rcases hh' with ⟨a', -, ha', rfl⟩ | ⟨hne', ha'⟩
    · simp only [List.cons_append, List.append_assoc, List.cons.injEq, true_and] at e
      obtain ⟨h1, h2⟩ := split_unique (p := fun c => isHost6Char c = true) a (']' :: q) a' (']' :: q') (by simpa using e) ha ha'
        (by intro c hc; simp at hc; subst hc; exact not_host6 _ (by simp)) (by intro c hc; simp at hc; subst hc; exact not_host6 _ (by simp))
      subst h1
      exact ⟨rfl, by simpa using h2⟩
    · exact absurd e.symm (fun e => hb h' hne' ha' a q' q e)
  · rcases hh' with ⟨a', -, ha', rfl⟩ | ⟨hne', ha'⟩
    · exact absurd e (fun e => hb h hne ha a' q q' e)
    · refine split_unique (p := fun c => isHostChar c = true) h q h' q' e ha ha' ?_ ?_
      · intro c hc; rw [port_head hq c hc]; exact not_host _ (by simp)
      · intro c hc; rw [port_head hq' c hc]; exact not_host _ (by simp)

theorem url_unique {s u h q t e s' u' h' q' t' e' : List Char} (hs : ∀ c ∈ s, isSchemeChar c = true) (hs' : ∀ c ∈ s', isSchemeChar c = true)
    (hu : IsUserinfo u) (hu' : IsUserinfo u') (hh : HostText h) (hh' : HostText h') (hq : IsPort q) (hq' : IsPort q') (ht : IsPathEtc t)
    (ht' : IsPathEtc t') (he : e = [] ∨ e = ['\n']) (he' : e' = [] ∨ e' = ['\n'])
    (eq : s ++ ("://".toList ++ (u ++ (h ++ (q ++ (t ++ e))))) = s' ++ ("://".toList ++ (u' ++ (h' ++ (q' ++ (t' ++ e')))))) :
    s = s' ∧ u = u' ∧ h = h' := by
  obtain ⟨h1, h2⟩ := split_unique (p := fun c => isSchemeChar c = true) s _ s' _ eq hs hs' (by
    intro c hc; simp at hc; subst hc; decide) (by
    intro c hc; simp at hc; subst hc; decide)
  have h3 := List.append_cancel_left h2
  have inner : ∀ {u h q : List Char}, IsUserinfo u → HostText h → IsPort q → ∀ c ∈ u ++ (h ++ q), Inner c := by
    intro u h q a b d c hc
    rcases List.mem_append.1 hc with hc | hc
    · exact user_chars a c hc
    · rcases List.mem_append.1 hc with hc | hc
      · exact (hostText_chars b c hc).1
      · exact (port_chars d c hc).1
  have noAt : ∀ {h q : List Char}, HostText h → IsPort q → ∀ c ∈ h ++ q, c ≠ '@' := by
    intro h q b d c hc
    rcases List.mem_append.1 hc with hc | hc
    · exact (hostText_chars b c hc).2
    · exact (port_chars d c hc).2
  obtain ⟨h4, -⟩ := split_unique (p := Inner) (u ++ (h ++ q)) (t ++ e) (u' ++ (h' ++ q')) (t' ++ e') (by
    simpa [List.append_assoc] using h3) (inner hu hh hq) (inner hu' hh' hq') (pathEtc_head ht he) (pathEtc_head ht' he')
  obtain ⟨h5, h6⟩ := userinfo_unique hu hu' (noAt hh hq) (noAt hh' hq') h4
  exact ⟨h1, h5, (host_unique hh hh' hq hq' h6).1⟩

/-! ## The first match -/

/-- The groups recorded for the host. -/
def HostCaps (h : List Char) (cs : List (String × List Char)) : Prop :=
  (∃ a, a ≠ [] ∧ (∀ c ∈ a, isHost6Char c = true) ∧ h = '[' :: a ++ [']'] ∧ cs = [("host6", a)]) ∨
  (IsIPv4 h ∧ cs = [("host4", h)]) ∨
  (¬ IsIPv4 h ∧ (h ≠ [] ∧ ∀ c ∈ h, isHostChar c = true) ∧ cs = [("hostn", h)])

theorem run_url (s : List Char) : urlRegex.run (St.start s) =
    (urlStart.run (St.start s)).flatMap fun z => (urlHost6.run z ++ (urlHost4.run z ++ urlHostN.run z)).flatMap (Re.seq urlTail .eol).run := by
  simp [urlRegex, Re.run, St.guard, St.start]

theorem tail_eol_sound {z y : St} (h : y ∈ (Re.seq urlTail .eol).run z) :
    ∃ w cs, IsUrlTail w ∧ Other cs ∧ z.StepC w cs y ∧ (y.rest = [] ∨ y.rest = ['\n']) := by
  simp only [Re.run, List.mem_flatMap, St.guard] at h
  obtain ⟨z', hz', hy⟩ := h
  split at hy
  · rename_i he
    rw [List.mem_singleton] at hy; subst hy
    obtain ⟨w, cs, h1, h2, h3⟩ := tail_has.sound _ _ hz'
    exact ⟨w, cs, h1, h2, h3, (atEol_iff _).1 he⟩
  · cases hy

theorem tail_eol_complete {z : St} {w e : List Char} (hw : IsUrlTail w) (he : e = [] ∨ e = ['\n']) (h : z.rest = w ++ e) :
    (Re.seq urlTail .eol).run z ≠ [] := by
  obtain ⟨y, hy, hr⟩ := tail_has.complete z w e hw h
  intro hn
  have : y ∈ (Re.seq urlTail .eol).run z := by
    simp only [Re.run, List.mem_flatMap, St.guard]
    refine ⟨y, hy, ?_⟩
    have : y.atEol = true := (atEol_iff y).2 (hr ▸ he)
    simp [this]
  rw [hn] at this; cases this

theorem first_match {s : List Char} {y : St} (hy : (urlRegex.run (St.start s)).head? = some y) :
    ∃ sc u h q t e us hs ts, (sc ≠ [] ∧ ∀ c ∈ sc, isSchemeChar c = true) ∧ IsUserinfo u ∧ HostCaps h hs ∧ IsPort q ∧ IsPathEtc t ∧
      (e = [] ∨ e = ['\n']) ∧ Other us ∧ Other ts ∧ y.caps = ts ++ (hs ++ (us ++ [("scheme", sc)])) ∧
      s = sc ++ ("://".toList ++ (u ++ (h ++ (q ++ (t ++ e))))) := by
  rw [run_url, List.head?_flatMap] at hy
  obtain ⟨z, hz, hy⟩ := List.exists_of_findSome?_eq_some hy
  obtain ⟨w, cs, -, ⟨sc, u, us, hsc, hu, hus, rfl, rfl⟩, hstep⟩ := start_has.sound _ _ hz
  have fin : ∀ (h : List Char) (hs : List (String × List Char)) (z' : St), HostCaps h hs → z.StepC h hs z' → y ∈ (Re.seq urlTail .eol).run z' →
      ∃ sc u h q t e us hs ts, (sc ≠ [] ∧ ∀ c ∈ sc, isSchemeChar c = true) ∧ IsUserinfo u ∧ HostCaps h hs ∧ IsPort q ∧ IsPathEtc t ∧
      (e = [] ∨ e = ['\n']) ∧ Other us ∧ Other ts ∧ y.caps = ts ++ (hs ++ (us ++ [("scheme", sc)])) ∧
      s = sc ++ ("://".toList ++ (u ++ (h ++ (q ++ (t ++ e))))) := by
    intro h hs z' hc hst hyt
    obtain ⟨_, ts, ⟨q, t, hq, ht, rfl⟩, hts, hst2, he⟩ := tail_eol_sound hyt
    refine ⟨sc, u, h, q, t, y.rest, us, hs, ts, hsc, hu, hc, hq, ht, he, hus, hts, ?_, ?_⟩
    · rw [hst2.2.2, hst.2.2, hstep.2.2]; simp [St.start]
    · have h1 := hstep.1
      rw [hst.1, hst2.1] at h1
      simpa [St.start] using h1
  rw [List.flatMap_append, List.head?_append] at hy
  cases h6 : ((urlHost6.run z).flatMap (Re.seq urlTail .eol).run).head? with
  | some y' =>
    rw [h6] at hy
    simp only [Option.some_or, Option.some.injEq] at hy
    subst hy
    obtain ⟨z', hz', hy'⟩ := List.mem_flatMap.1 (List.mem_of_head? h6)
    obtain ⟨w, cs, ⟨a, ha1, ha2, rfl⟩, ⟨a', e, rfl⟩, hst⟩ := host6_has.sound _ _ hz'
    have : a = a' := by simpa using e
    subst this
    exact fin _ _ _ (Or.inl ⟨a, ha1, ha2, rfl, rfl⟩) hst hy'
  | none =>
    rw [h6, Option.none_or, List.flatMap_append, List.head?_append] at hy
    cases h4 : ((urlHost4.run z).flatMap (Re.seq urlTail .eol).run).head? with
    | some y' =>
      rw [h4] at hy
      simp only [Option.some_or, Option.some.injEq] at hy
      subst hy
      obtain ⟨z', hz', hy'⟩ := List.mem_flatMap.1 (List.mem_of_head? h4)
      obtain ⟨w, cs, hw, rfl, hst⟩ := host4_has.sound _ _ hz'
      exact fin _ _ _ (Or.inr (Or.inl ⟨hw, rfl⟩)) hst hy'
    | none =>
      rw [h4, Option.none_or] at hy
      obtain ⟨z', hz', hy'⟩ := List.mem_flatMap.1 (List.mem_of_head? hy)
      obtain ⟨w, cs, hw, rfl, hst⟩ := hostn_has.sound _ _ hz'
      refine fin _ _ _ (Or.inr (Or.inr ⟨?_, hw, rfl⟩)) hst hy'
      intro h4'
      obtain ⟨_, ts, hq, -, hst2, he⟩ := tail_eol_sound hy'
      obtain ⟨z4, hz4, hr⟩ := host4_has.complete z w z'.rest h4' hst.1
      have hne := tail_eol_complete (z := z4) hq he (hr ▸ hst2.1)
      obtain ⟨y4, hy4⟩ := List.exists_mem_of_ne_nil _ hne
      rw [List.head?_eq_none_iff] at h4
      have : y4 ∈ (urlHost4.run z).flatMap (Re.seq urlTail .eol).run := List.mem_flatMap.2 ⟨z4, hz4, hy4⟩
      rw [h4] at this; cases this

theorem ipv4_chars {h : List Char} (h4 : IsIPv4 h) : h ≠ [] ∧ ∀ c ∈ h, isHostChar c = true := by
  obtain ⟨a, b, c, d, ha, hb, hc, hd, rfl⟩ := h4
  refine ⟨by simp, ?_⟩
  have dg : ∀ x, isAsciiDigit x = true → isHostChar x = true := by
    intro x hx
    simp only [isAsciiDigit, decide_eq_true_eq] at hx
    rw [host_iff]
    refine ⟨by omega, by omega, ?_, ?_⟩
    · intro hm
      have : ∀ c ∈ "<>{}|\"`^".toList, ¬ (48 ≤ c.toNat ∧ c.toNat ≤ 57) := by decide
      exact this x hm hx
    · intro hm
      have : ∀ c ∈ urlSpecials, ¬ (48 ≤ c.toNat ∧ c.toNat ≤ 57) := by decide
      exact absurd hx (this x hm)
  intro x hx
  simp only [List.append_assoc, List.cons_append, List.mem_append, List.mem_cons] at hx
  have dot : isHostChar '.' = true := by decide
  rcases hx with h | rfl | h | rfl | h | rfl | h
  · exact dg x (ha.2.2.1 x h)
  · exact dot
  · exact dg x (hb.2.2.1 x h)
  · exact dot
  · exact dg x (hc.2.2.1 x h)
  · exact dot
  · exact dg x (hd.2.2.1 x h)

theorem match_exists {sc u h q t e : List Char} (hsc : sc ≠ [] ∧ ∀ c ∈ sc, isSchemeChar c = true) (hu : IsUserinfo u) (hh : HostText h)
    (hq : IsPort q) (ht : IsPathEtc t) (he : e = [] ∨ e = ['\n']) :
    ∃ y, (urlRegex.run (St.start (sc ++ ("://".toList ++ (u ++ (h ++ (q ++ (t ++ e)))))))).head? = some y := by
  obtain ⟨z, hz, hz'⟩ := start_has.complete (St.start (sc ++ ("://".toList ++ (u ++ (h ++ (q ++ (t ++ e)))))))
    (sc ++ ("://".toList ++ u)) (h ++ (q ++ (t ++ e))) ⟨sc, u, hsc, hu, rfl⟩ (by simp [St.start])
  have : ∃ z' ∈ urlHost6.run z ++ (urlHost4.run z ++ urlHostN.run z), z'.rest = q ++ (t ++ e) := by
    rcases hh with hh | hh
    · obtain ⟨z', h1, h2⟩ := host6_has.complete z h _ hh hz'
      exact ⟨z', List.mem_append_left _ h1, h2⟩
    · obtain ⟨z', h1, h2⟩ := hostn_has.complete z h _ hh hz'
      exact ⟨z', List.mem_append_right _ (List.mem_append_right _ h1), h2⟩
  obtain ⟨z', h1, h2⟩ := this
  obtain ⟨y, hy⟩ := List.exists_mem_of_ne_nil _ (tail_eol_complete (z := z') ⟨q, t, hq, ht, rfl⟩ he (by rw [h2, List.append_assoc]))
  rw [run_url]
  have : y ∈ (urlStart.run (St.start (sc ++ ("://".toList ++ (u ++ (h ++ (q ++ (t ++ e)))))))).flatMap fun z =>
      (urlHost6.run z ++ (urlHost4.run z ++ urlHostN.run z)).flatMap (Re.seq urlTail .eol).run :=
    List.mem_flatMap.2 ⟨z, hz, List.mem_flatMap.2 ⟨z', h1, hy⟩⟩
  cases hc : (urlStart.run (St.start (sc ++ ("://".toList ++ (u ++ (h ++ (q ++ (t ++ e)))))))).flatMap fun z =>
      (urlHost6.run z ++ (urlHost4.run z ++ urlHostN.run z)).flatMap (Re.seq urlTail .eol).run with
  | nil => rw [hc] at this; cases this
  | cons y ys => exact ⟨y, rfl⟩

/-! ## Host names -/

theorem splitDots_ne (a : List Char) : splitDots a ≠ [] := by
  induction a with
  | nil => simp [splitDots]
  | cons c r ih =>
    by_cases h : c = '.'
    · subst h; simp [splitDots]
    · rw [splitDots]
      · cases hs : splitDots r <;> simp
      · exact fun e => h e

theorem splitDots_cons {c : Char} (h : c ≠ '.') (r : List Char) : ∃ w ws, splitDots r = w :: ws ∧ splitDots (c :: r) = (c :: w) :: ws := by
  cases hs : splitDots r with
  | nil => exact absurd hs (splitDots_ne r)
  | cons w ws =>
    refine ⟨w, ws, rfl, ?_⟩
    rw [splitDots, hs]
    exact fun e => h e

theorem join_splitDots (a : List Char) : joinSep '.' (splitDots a) = a := by
  induction a with
  | nil => rfl
  | cons c r ih =>
    by_cases h : c = '.'
    · subst h
      rw [splitDots]
      cases hs : splitDots r with
      | nil => exact absurd hs (splitDots_ne r)
      | cons w ws =>
        rw [hs] at ih
        rw [joinSep, ih]
        · rfl
        · simp
    · obtain ⟨w, ws, h1, h2⟩ := splitDots_cons h r
      rw [h1] at ih
      rw [h2, joinSep_eq, List.cons_append, ← joinSep_eq, ih]

theorem splitDots_nodot (a : List Char) : ∀ l ∈ splitDots a, '.' ∉ l := by
  induction a with
  | nil => simp [splitDots]
  | cons c r ih =>
    by_cases h : c = '.'
    · subst h
      rw [splitDots]
      simpa using ih
    · obtain ⟨w, ws, h1, h2⟩ := splitDots_cons h r
      rw [h2]
      rw [h1] at ih
      intro l hl
      rcases List.mem_cons.1 hl with rfl | hl
      · intro hm
        rcases List.mem_cons.1 hm with e | hm
        · exact h e.symm
        · exact ih w (by simp) hm
      · exact ih l (by simp [hl])

theorem splitDots_plain (l : List Char) (h : '.' ∉ l) : splitDots l = [l] := by
  induction l with
  | nil => rfl
  | cons c l ih =>
    have hc : c ≠ '.' := fun e => h (by simp [e])
    obtain ⟨w, ws, h1, h2⟩ := splitDots_cons hc l
    rw [ih (fun hm => h (by simp [hm]))] at h1
    rw [h2]
    simp only [List.cons.injEq] at h1
    rw [← h1.1, ← h1.2]

theorem splitDots_append (l r : List Char) (h : '.' ∉ l) : splitDots (l ++ '.' :: r) = l :: splitDots r := by
  induction l with
  | nil => rfl
  | cons c l ih =>
    have hc : c ≠ '.' := fun e => h (by simp [e])
    obtain ⟨w, ws, h1, h2⟩ := splitDots_cons hc (l ++ '.' :: r)
    rw [ih (fun hm => h (by simp [hm]))] at h1
    rw [List.cons_append, h2]
    simp only [List.cons.injEq] at h1
    rw [← h1.1, ← h1.2]

theorem splitDots_join : ∀ (ls : List (List Char)), ls ≠ [] → (∀ l ∈ ls, '.' ∉ l) → splitDots (joinSep '.' ls) = ls := by
  intro ls
  induction ls with
  | nil => intro h; exact absurd rfl h
  | cons l ls ih =>
    intro _ h
    cases ls with
    | nil => exact splitDots_plain l (h l (by simp))
    | cons l' ls =>
      rw [joinSep, splitDots_append _ _ (h l (by simp)), ih (by simp) (fun x hx => h x (by simp [hx]))]
      simp

theorem join_getLast : ∀ (ls : List (List Char)), ls ≠ [] → (∀ l ∈ ls, IsHostLabel l) → (joinSep '.' ls).getLast? ≠ some '.' := by
  intro ls
  induction ls with
  | nil => intro h; exact absurd rfl h
  | cons l ls ih =>
    intro _ h
    cases ls with
    | nil =>
      intro e
      exact (h l (by simp)).2.2.1 (List.mem_of_getLast? e)
    | cons l' ls =>
      have := ih (by simp) (fun x hx => h x (by simp [hx]))
      rw [joinSep, List.getLast?_append]
      · have hne : joinSep '.' (l' :: ls) ≠ [] := by
          have hl := (h l' (by simp)).1
          rw [joinSep_eq]
          intro e
          simp at e
          rw [e.1] at hl
          simp at hl
        rw [show ('.' :: joinSep '.' (l' :: ls)).getLast? = (joinSep '.' (l' :: ls)).getLast? by
          cases hj : joinSep '.' (l' :: ls) with
          | nil => exact absurd hj hne
          | cons c cs => simp [List.getLast?_cons_cons]]
        cases hg : (joinSep '.' (l' :: ls)).getLast? with
        | none => rw [List.getLast?_eq_none_iff] at hg; exact absurd hg hne
        | some c => rw [hg] at this; simpa using this
      · simp

theorem labelOk_iff (l : List Char) (h : '.' ∉ l) : labelOk l = true ↔ IsHostLabel l := by
  unfold labelOk IsHostLabel
  simp only [Bool.and_eq_true, decide_eq_true_eq, bne_iff_ne, ne_eq]
  constructor
  · rintro ⟨⟨⟨a, b⟩, c⟩, d⟩; exact ⟨a, by omega, h, c, d⟩
  · rintro ⟨a, b, -, c, d⟩; exact ⟨⟨⟨a, by omega⟩, c⟩, d⟩

theorem lowerChar_eq (c : Char) : lowerChar c = c.toLower := by
  unfold lowerChar Char.toLower
  have e1 : (c.val ≥ 'A'.val ∧ c.val ≤ 'Z'.val) ↔ (65 ≤ c.toNat ∧ c.toNat ≤ 90) := by
    simp only [Char.toNat, ge_iff_le, UInt32.le_iff_toNat_le]; rfl
  by_cases h : 65 ≤ c.toNat ∧ c.toNat ≤ 90
  · rw [if_pos h, dif_pos (e1.2 h)]
    apply Char.ext
    apply UInt32.toNat_inj.1
    have hv : (c.toNat + 32).isValidChar := Or.inl (by omega)
    rw [Char.ofNat, dif_pos hv]
    simp only [Char.ofNatAux, UInt32.toNat_add]
    have : c.val.toNat = c.toNat := rfl
    simp [this]
  · rw [if_neg h, dif_neg (fun h' => h (e1.1 h'))]

theorem lower_iff (c d : Char) (h : c.toNat < 65 ∨ 90 < c.toNat) : d.toLower = c ↔ d = c ∨ (65 ≤ d.toNat ∧ d.toNat ≤ 90 ∧ d.toNat + 32 = c.toNat) := by
  rw [← lowerChar_eq, lowerChar]
  have toNat_inj : ∀ a b : Char, a.toNat = b.toNat → a = b := fun a b e => Char.ext (UInt32.toNat_inj.1 e)
  have nat : ∀ n, n < 0xd800 → (Char.ofNat n).toNat = n := by
    intro n hn
    rw [Char.ofNat, dif_pos (Or.inl hn)]
    simp only [Char.ofNatAux, Char.toNat]
    rfl
  split
  · rename_i hd
    constructor
    · intro e
      right
      rw [← e, nat _ (by omega)]
      exact ⟨hd.1, hd.2, rfl⟩
    · rintro (rfl | ⟨-, -, e⟩)
      · omega
      · exact toNat_inj _ _ (by rw [nat _ (by omega), e])
  · rename_i hd
    constructor
    · exact Or.inl
    · rintro (e | ⟨h1, h2, -⟩)
      · exact e
      · exact absurd ⟨h1, h2⟩ hd

theorem tld_iff (l : List Char) : tldBody.L l ↔ IsTld l := by
  have seqL : ∀ (a b : Re) (w : List Char), (Re.seq a b).L w ↔ ∃ u v, a.L u ∧ b.L v ∧ w = u ++ v := fun _ _ _ => Iff.rfl
  have altL : ∀ (a b : Re) (w : List Char), (Re.alt a b).L w ↔ a.L w ∨ b.L w := fun _ _ _ => Iff.rfl
  have many : ∀ (n : Nat) (p : Char → Bool) (w : List Char), (Re.seq (rep n (.cls p)) (.star (.cls p))).L w ↔ n ≤ w.length ∧ ∀ c ∈ w, p c = true := by
    intro n p w
    rw [seqL]
    simp only [Re.L_rep_cls, Re.L_star_cls]
    constructor
    · rintro ⟨u, v, ⟨h1, h2⟩, h3, rfl⟩
      refine ⟨by simp; omega, ?_⟩
      intro c hc
      rcases List.mem_append.1 hc with hc | hc
      · exact h2 c hc
      · exact h3 c hc
    · rintro ⟨h1, h2⟩
      exact ⟨w.take n, w.drop n, ⟨by simp [h1], fun c hc => h2 c (List.mem_of_mem_take hc)⟩, fun c hc => h2 c (List.mem_of_mem_drop hc), by simp⟩
  have lx : ∀ w, (tldBody.chr' 'x').L w ↔ ∃ d : Char, d.toLower = 'x' ∧ w = [d] := by
    intro w
    rw [tldBody.chr', Re.L]
    have : ∀ d : Char, (d == 'x' || d == 'x'.toUpper) = true ↔ d.toLower = 'x' := by
      intro d
      rw [lower_iff _ _ (by decide)]
      simp only [Bool.or_eq_true, beq_iff_eq]
      refine or_congr Iff.rfl ⟨?_, ?_⟩
      · rintro rfl; decide
      · rintro ⟨-, -, e⟩
        exact Char.ext (UInt32.toNat_inj.1 (show d.toNat = 88 by have : 'x'.toNat = 120 := rfl; omega))
    simp only [this]
  have ln : ∀ w, (tldBody.chr' 'n').L w ↔ ∃ d : Char, d.toLower = 'n' ∧ w = [d] := by
    intro w
    rw [tldBody.chr', Re.L]
    have : ∀ d : Char, (d == 'n' || d == 'n'.toUpper) = true ↔ d.toLower = 'n' := by
      intro d
      rw [lower_iff _ _ (by decide)]
      simp only [Bool.or_eq_true, beq_iff_eq]
      refine or_congr Iff.rfl ⟨?_, ?_⟩
      · rintro rfl; decide
      · rintro ⟨-, -, e⟩
        exact Char.ext (UInt32.toNat_inj.1 (show d.toNat = 78 by have : 'n'.toNat = 110 := rfl; omega))
    simp only [this]
  have lh : ∀ d : Char, d.toLower = '-' ↔ d = '-' := by
    intro d
    rw [lower_iff _ _ (by decide)]
    have : '-'.toNat = 45 := rfl
    constructor
    · rintro (h | h)
      · exact h
      · omega
    · exact Or.inl
  have la : ∀ c, tldBody.isAlnumI c = true ↔ (isLetterI c = true ∨ '0' ≤ c ∧ c ≤ '9') := by
    intro c
    rw [tldBody.isAlnumI, Bool.or_eq_true, digit_iff]
  have m4 := many 4 tldBody.isAlnumI
  unfold tldBody IsTld
  rw [altL, many]
  generalize Re.seq (rep 4 (Re.cls tldBody.isAlnumI)) (Re.star (Re.cls tldBody.isAlnumI)) = R at *
  simp only [la] at m4
  simp only [seqL, lx, ln, Re.L_chr, m4, Spells]
  refine or_congr Iff.rfl ⟨?_, ?_⟩
  · rintro ⟨_, _, ⟨x, hx, rfl⟩, ⟨_, _, ⟨n, hn, rfl⟩, ⟨_, _, rfl, ⟨_, t, rfl, ⟨h1, h2⟩, rfl⟩, rfl⟩, rfl⟩, rfl⟩
    exact ⟨[x, n, '-', '-'], t, by rw [List.map, List.map, hx, hn]; decide, h1, h2, rfl⟩
  · rintro ⟨p, t, hp, h4, ht, rfl⟩
    have hlen : p.length = 4 := by
      have := congrArg List.length hp
      simpa using this
    match p, hp, hlen with
    | [x, n, a, b], hp, _ =>
      have e : "xn--".toList = ['x', 'n', '-', '-'] := by decide
      rw [e] at hp
      simp only [List.map, List.cons.injEq, lh, and_true] at hp
      obtain ⟨hx, hn, rfl, rfl⟩ := hp
      exact ⟨_, _, ⟨x, hx, rfl⟩, ⟨_, _, ⟨n, hn, rfl⟩, ⟨_, _, rfl, ⟨_, t, rfl, ⟨h4, ht⟩, rfl⟩, rfl⟩, rfl⟩, rfl⟩

theorem no_newline_full {P : List Char → Prop} {l : List Char} (h : '\n' ∉ l) : Full P l ↔ P l := by
  constructor
  · rintro (h' | ⟨w, -, rfl⟩)
    · exact h'
    · exact absurd (by simp) h
  · exact Or.inl

theorem tldRegex_iff (l : List Char) (h : '\n' ∉ l) : tldRegex.test l = true ↔ IsTld l := by
  rw [tldRegex, Re.anchored_iff _ (by decide)]
  exact (no_newline_full h).trans (tld_iff l)

theorem mem_join {l : List Char} {c : Char} (hc : c ∈ l) : ∀ {ls : List (List Char)}, l ∈ ls → c ∈ joinSep '.' ls := by
  intro ls
  induction ls with
  | nil => intro h; cases h
  | cons l' ls ih =>
    intro h
    rw [joinSep_eq]
    rcases List.mem_cons.1 h with rfl | h
    · exact List.mem_append_left _ hc
    · refine List.mem_append_right _ (List.mem_flatten.2 ⟨'.' :: l, List.mem_map.2 ⟨l, h, rfl⟩, by simp [hc]⟩)

/-- The checks of the host name in terms of its labels. -/
theorem hostname_iff (fqdn : Bool) (a : List Char) (hnl : '\n' ∉ a) : hostnameOk fqdn a = true ↔ IsHostname fqdn a := by
  have core : ∀ (b : List Char), '\n' ∉ b →
      ((decide (b.length ≤ 253) && (splitDots b).all labelOk && (!fqdn || ((splitDots b).length != 1 && tldRegex.test ((splitDots b).getLast?.getD [])))) = true ↔
      ((∀ l ∈ splitDots b, IsHostLabel l) ∧ b.length ≤ 253 ∧ (fqdn = true → 2 ≤ (splitDots b).length ∧ ∃ t, (splitDots b).getLast? = some t ∧ IsTld t))) := by
    intro b hb
    have hl : (splitDots b).all labelOk = true ↔ ∀ l ∈ splitDots b, IsHostLabel l := by
      rw [List.all_eq_true]
      constructor
      · intro h l hl; exact (labelOk_iff l (splitDots_nodot b l hl)).1 (h l hl)
      · intro h l hl; exact (labelOk_iff l (splitDots_nodot b l hl)).2 (h l hl)
    have hlen : 1 ≤ (splitDots b).length := List.length_pos_iff.2 (splitDots_ne b)
    obtain ⟨t, ht⟩ : ∃ t, (splitDots b).getLast? = some t := by
      cases h : (splitDots b).getLast? with
      | none => rw [List.getLast?_eq_none_iff] at h; exact absurd h (splitDots_ne b)
      | some t => exact ⟨t, rfl⟩
    have hnt : '\n' ∉ t := by
      intro hm
      have := mem_join hm (List.mem_of_getLast? ht)
      rw [join_splitDots] at this
      exact hb this
    have htld := tldRegex_iff t hnt
    rw [ht]
    simp only [Bool.and_eq_true, decide_eq_true_eq, hl, Bool.or_eq_true, Bool.not_eq_true', bne_iff_ne, ne_eq, Option.getD_some, htld, Option.some.injEq,
      exists_eq_left']
    constructor
    · rintro ⟨⟨h1, h2⟩, h3⟩
      refine ⟨h2, h1, fun hf => ?_⟩
      rcases h3 with h3 | ⟨h3, h4⟩
      · rw [hf] at h3; cases h3
      · exact ⟨by omega, h4⟩
    · rintro ⟨h1, h2, h3⟩
      refine ⟨⟨h2, h1⟩, ?_⟩
      cases fqdn with
      | false => exact Or.inl rfl
      | true => obtain ⟨h4, h5⟩ := h3 rfl; exact Or.inr ⟨by omega, h5⟩
  unfold hostnameOk
  simp only []
  have hd : '\n' ∉ dropDot a := by
    unfold dropDot
    split
    · exact fun h => hnl (List.dropLast_subset a h)
    · exact hnl
  rw [core _ hd]
  unfold IsHostname
  constructor
  · rintro ⟨h1, h2, h3⟩
    refine ⟨splitDots (dropDot a), splitDots_ne _, h1, by rw [join_splitDots]; exact h2, ?_, h3⟩
    rw [join_splitDots]
    unfold dropDot
    split
    · rename_i hg
      obtain ⟨l, rfl⟩ := List.getLast?_eq_some_iff.1 hg
      right; simp
    · exact Or.inl rfl
  · rintro ⟨ls, hls, h1, h2, h3, h4⟩
    have hdd : dropDot a = joinSep '.' ls := by
      unfold dropDot
      rcases h3 with rfl | rfl
      · rw [if_neg (join_getLast ls hls h1)]
      · simp
    rw [hdd, splitDots_join ls hls (fun l hl => (h1 l hl).2.2.1)]
    exact ⟨h1, h2, h4⟩

/-! ## C79 -/

theorem isAscii_iff (h : List Char) : isAscii h = true ↔ ∀ c ∈ h, c.toNat < 128 := by
  simp [isAscii]

theorem hostn_iff (idna : List Char → Option (List Char)) (hidna : ∀ h a, idna h = some a → '\n' ∉ a) (fqdn : Bool) (h : List Char)
    (hh : ∀ c ∈ h, isHostChar c = true) : hostnCheck idna fqdn h = .ok true ↔
    ∃ a, ((∀ c ∈ h, c.toNat < 128) ∧ a = h ∨ (∃ c ∈ h, 128 ≤ c.toNat) ∧ idna h = some a) ∧ IsHostname fqdn a := by
  have hnl : '\n' ∉ h := fun hm => not_host '\n' (by simp) (hh _ hm)
  have key : ∀ a, '\n' ∉ a → ((match some a with | none => .ok false | some [] => .error (.other "IndexError") | some a => .ok (hostnameOk fqdn a) : R Bool) = .ok true ↔
      IsHostname fqdn a) := by
    intro a ha
    cases a with
    | nil =>
      constructor
      · intro h; cases h
      · rintro ⟨ls, hls, h1, -, h3, -⟩
        exfalso
        rcases h3 with h3 | h3
        · cases ls with
          | nil => exact hls rfl
          | cons l ls =>
            rw [joinSep_eq] at h3
            have := (h1 l (by simp)).1
            have hl : l = [] := (List.append_eq_nil_iff.1 h3.symm).1
            rw [hl] at this; simp at this
        · simp at h3
    | cons c cs =>
      rw [← hostname_iff fqdn _ ha]
      constructor
      · intro h; exact Except.ok.inj h
      · intro h; rw [← h]
  unfold hostnCheck asciiHost
  cases has : isAscii h with
  | true =>
    rw [if_pos rfl]
    have h1 := (isAscii_iff h).1 has
    refine (key h hnl).trans ?_
    constructor
    · intro h2; exact ⟨h, Or.inl ⟨h1, rfl⟩, h2⟩
    · rintro ⟨a, ⟨-, rfl⟩ | ⟨⟨c, hc, hc'⟩, -⟩, h2⟩
      · exact h2
      · exact absurd (h1 c hc) (by omega)
  | false =>
    rw [if_neg (by simp)]
    have h1 : ∃ c ∈ h, 128 ≤ c.toNat := by
      simpa [isAscii] using has
    cases hi : idna h with
    | none =>
      constructor
      · intro h; cases Except.ok.inj h
      · rintro ⟨a, ⟨h2, -⟩ | ⟨-, h2⟩, -⟩
        · obtain ⟨c, hc, hc'⟩ := h1
          exact absurd (h2 c hc) (by omega)
        · cases h2
    | some a =>
      refine (key a (hidna h a hi)).trans ?_
      constructor
      · intro h2; exact ⟨a, Or.inr ⟨h1, rfl⟩, h2⟩
      · rintro ⟨b, ⟨h2, -⟩ | ⟨-, h2⟩, h3⟩
        · obtain ⟨c, hc, hc'⟩ := h1
          exact absurd (h2 c hc) (by omega)
        · cases h2; exact h3

theorem scheme_iff (s : List Char) : (s.map lowerChar = "http".toList ∨ s.map lowerChar = "https".toList) ↔ (Spells "http" s ∨ Spells "https" s) := by
  unfold Spells
  rw [show s.map lowerChar = s.map Char.toLower from List.map_congr_left fun c _ => lowerChar_eq c]

theorem scheme_chars {s : List Char} (h : Spells "http" s ∨ Spells "https" s) : s ≠ [] ∧ ∀ c ∈ s, isSchemeChar c = true := by
  have aux : ∀ low : String, low.toList ≠ [] → (∀ c ∈ low.toList, 97 ≤ c.toNat ∧ c.toNat ≤ 122) → Spells low s → s ≠ [] ∧ ∀ c ∈ s, isSchemeChar c = true := by
    intro low hne hlow hs
    refine ⟨?_, ?_⟩
    · rintro rfl; exact hne hs.symm
    · intro c hc
      have hm : c.toLower ∈ low.toList := hs ▸ List.mem_map.2 ⟨c, hc, rfl⟩
      have hr := hlow _ hm
      have := (lower_iff c.toLower c (by omega)).1 rfl
      simp only [isSchemeChar, isLetterI, Bool.or_eq_true, decide_eq_true_eq, beq_iff_eq]
      rcases this with e | ⟨h1, h2, -⟩
      · rw [← e] at hr
        exact Or.inl (Or.inl (Or.inl (Or.inl (Or.inl (Or.inl (Or.inl (Or.inl (Or.inr hr))))))))
      · exact Or.inl (Or.inl (Or.inl (Or.inl (Or.inl (Or.inl (Or.inl (Or.inl (Or.inl ⟨h1, h2⟩))))))))
  rcases h with h | h
  · exact aux "http" (by decide) (by decide) h
  · exact aux "https" (by decide) (by decide) h

theorem ipv6_test (a : List Char) (h : ∀ c ∈ a, isHost6Char c = true) : ipv6Regex.test a = true ↔ IsIPv6 a := by
  rw [ipv6Regex, Re.anchored_iff _ pure_ipv6]
  have : '\n' ∉ a := fun hm => not_host6 '\n' (by simp) (h _ hm)
  exact (no_newline_full this).trans (ipv6_iff a)

theorem host6_iff (c : Char) : isHost6Char c = true ↔ isHex c = true ∨ c = ':' := by
  simp [isHost6Char]

theorem hostText_of {idna fqdn} {h : List Char} (hh : IsHost idna fqdn h) : HostText h := by
  rcases hh with ⟨a, h6, hc, rfl⟩ | h4 | ⟨hne, hc, -⟩
  · refine Or.inl ⟨a, ?_, fun c hm => (host6_iff c).2 (hc c hm), rfl⟩
    rintro rfl
    have : ipv6Regex.test [] = true := (ipv6_test [] (by simp)).2 h6
    revert this; decide +kernel
  · exact Or.inr (ipv4_chars h4)
  · exact Or.inr ⟨hne, fun c hm => (host_iff c).2 (hc c hm)⟩

theorem hostText_caps {h cs} (hh : HostCaps h cs) : HostText h := by
  rcases hh with ⟨a, h1, h2, h3, -⟩ | ⟨h4, -⟩ | ⟨-, h, -⟩
  · exact Or.inl ⟨a, h1, h2, h3⟩
  · exact Or.inr (ipv4_chars h4)
  · exact Or.inr h

theorem groupOf_caps {ts hs us : List (String × List Char)} {sc : List Char} (hts : Other ts) (hus : Other us) (n : String)
    (hn : n ∈ ["scheme", "host6", "host4", "hostn"]) :
    groupOf (ts ++ (hs ++ (us ++ [("scheme", sc)]))) n = (groupOf hs n).or (groupOf [("scheme", sc)] n) := by
  rw [groupOf_append, groupOf_append, groupOf_append, hts n hn, hus n hn]; simp

/-- The checks after the match succeed iff the scheme is HTTP's and the host is one. -/
theorem urlCheck_iff (idna : List Char → Option (List Char)) (hidna : ∀ h a, idna h = some a → '\n' ∉ a) (fqdn : Bool)
    {ts hs us : List (String × List Char)} {sc h : List Char} (hts : Other ts) (hus : Other us) (hh : HostCaps h hs) :
    urlCheck idna fqdn (ts ++ (hs ++ (us ++ [("scheme", sc)]))) = .ok true ↔ (Spells "http" sc ∨ Spells "https" sc) ∧ IsHost idna fqdn h := by
  unfold urlCheck
  rw [groupOf_caps hts hus "scheme" (by simp), groupOf_caps hts hus "host6" (by simp), groupOf_caps hts hus "host4" (by simp),
    groupOf_caps hts hus "hostn" (by simp)]
  have hsc : ((groupOf hs "scheme").or (groupOf [("scheme", sc)] "scheme")).getD [] = sc := by
    rcases hh with ⟨a, -, -, -, rfl⟩ | ⟨-, rfl⟩ | ⟨-, -, rfl⟩ <;> rfl
  rw [hsc]
  simp only []
  by_cases hp : sc.map lowerChar = "http".toList ∨ sc.map lowerChar = "https".toList
  · rw [if_pos hp]
    have hsp := (scheme_iff sc).1 hp
    rcases hh with ⟨a, ha, hac, rfl, rfl⟩ | ⟨h4, rfl⟩ | ⟨hn4, ⟨hne, hhc⟩, rfl⟩
    · have e : ((groupOf [("host6", a)] "host6").or (groupOf [("scheme", sc)] "host6")) = some a := rfl
      rw [e]
      simp only [Except.ok.injEq]
      rw [ipv6_test a hac]
      constructor
      · intro h6; exact ⟨hsp, Or.inl ⟨a, h6, fun c hm => (host6_iff c).1 (hac c hm), rfl⟩⟩
      · rintro ⟨-, hho⟩
        rcases hho with ⟨b, h6, -, e⟩ | h4 | ⟨-, hc, -⟩
        · have : a = b := by simpa using e
          exact this ▸ h6
        · exact absurd ((ipv4_chars h4).2 '[' (by simp)) (not_host _ (by simp))
        · exact absurd ((host_iff '[').2 (hc '[' (by simp))) (not_host _ (by simp))
    · have e : ((groupOf [("host4", h)] "host6").or (groupOf [("scheme", sc)] "host6")) = none := rfl
      have e4 : ((groupOf [("host4", h)] "host4").or (groupOf [("scheme", sc)] "host4")) = some h := rfl
      rw [e, e4]
      exact ⟨fun _ => ⟨hsp, Or.inr (Or.inl h4)⟩, fun _ => rfl⟩
    · have e : ((groupOf [("hostn", h)] "host6").or (groupOf [("scheme", sc)] "host6")) = none := rfl
      have e4 : ((groupOf [("hostn", h)] "host4").or (groupOf [("scheme", sc)] "host4")) = none := rfl
      have en : ((groupOf [("hostn", h)] "hostn").or (groupOf [("scheme", sc)] "hostn")) = some h := rfl
      rw [e, e4, en]
      simp only [Option.getD_some]
      rw [hostn_iff idna hidna fqdn h hhc]
      constructor
      · intro hx; exact ⟨hsp, Or.inr (Or.inr ⟨hne, fun c hm => (host_iff c).1 (hhc c hm), hx⟩)⟩
      · rintro ⟨-, ⟨b, -, -, rfl⟩ | h4 | ⟨-, -, hx⟩⟩
        · exact absurd (hhc '[' (by simp)) (not_host _ (by simp))
        · exact absurd h4 hn4
        · exact hx
  · rw [if_neg hp]
    constructor
    · intro h; cases Except.ok.inj h
    · rintro ⟨h1, -⟩; exact absurd ((scheme_iff sc).2 h1) hp

theorem validUrl_iff (idna : List Char → Option (List Char)) (hidna : ∀ h a, idna h = some a → '\n' ∉ a) (fqdn : Bool) (s : List Char) :
    validUrl idna fqdn s = .ok true ↔ Full (IsUrl idna fqdn) s := by
  have full : Full (IsUrl idna fqdn) s ↔ ∃ sc u h p t e, (Spells "http" sc ∨ Spells "https" sc) ∧ IsUserinfo u ∧ IsHost idna fqdn h ∧ IsPort p ∧
      IsPathEtc t ∧ (e = [] ∨ e = ['\n']) ∧ s = sc ++ ("://".toList ++ (u ++ (h ++ (p ++ (t ++ e))))) := by
    constructor
    · rintro (⟨sc, u, h, p, t, h1, h2, h3, h4, h5, rfl⟩ | ⟨w, ⟨sc, u, h, p, t, h1, h2, h3, h4, h5, rfl⟩, rfl⟩)
      · exact ⟨sc, u, h, p, t, [], h1, h2, h3, h4, h5, Or.inl rfl, by simp⟩
      · exact ⟨sc, u, h, p, t, ['\n'], h1, h2, h3, h4, h5, Or.inr rfl, by simp⟩
    · rintro ⟨sc, u, h, p, t, e, h1, h2, h3, h4, h5, rfl | rfl, rfl⟩
      · exact Or.inl ⟨sc, u, h, p, t, h1, h2, h3, h4, h5, by simp⟩
      · exact Or.inr ⟨_, ⟨sc, u, h, p, t, h1, h2, h3, h4, h5, rfl⟩, by simp⟩
  rw [full]
  unfold validUrl
  constructor
  · intro hv
    cases hy : (urlRegex.run (St.start s)).head? with
    | none => rw [hy] at hv; cases Except.ok.inj hv
    | some y =>
      rw [hy] at hv
      obtain ⟨sc, u, h, q, t, e, us, hs, ts, hsc, hu, hh, hq, ht, he, hus, hts, hc, rfl⟩ := first_match hy
      simp only [hc] at hv
      rw [urlCheck_iff idna hidna fqdn hts hus hh] at hv
      exact ⟨sc, u, h, q, t, e, hv.1, hu, hv.2, hq, ht, he, rfl⟩
  · rintro ⟨sc, u, h, q, t, e, h1, h2, h3, h4, h5, he, rfl⟩
    obtain ⟨y, hy⟩ := match_exists (scheme_chars h1) h2 (hostText_of h3) h4 h5 he
    rw [hy]
    obtain ⟨sc', u', h', q', t', e', us, hs, ts, hsc, hu, hh, hq, ht, he', hus, hts, hc, heq⟩ := first_match hy
    obtain ⟨rfl, rfl, rfl⟩ := url_unique (scheme_chars h1).2 hsc.2 h2 hu (hostText_of h3) (hostText_caps hh) h4 hq h5 ht he he' heq
    simp only [hc]
    rw [urlCheck_iff idna hidna fqdn hts hus hh]
    exact ⟨h1, h3⟩

/-- **C79.**  `URLType` accepts a text iff it is an HTTP URL, or one followed by a newline. -/
theorem C79_url_exact (idna : List Char → Option (List Char)) (hidna : ∀ h a, idna h = some a → '\n' ∉ a) (fqdn : Bool) (app : Val) (s : String) :
    Passes (urlType idna fqdn) app s ↔ Full (IsUrl idna fqdn) s.toList := by
  rw [← validUrl_iff idna hidna]
  simp only [Passes, urlType, List.mem_cons, List.not_mem_nil, or_false, forall_eq_or_imp, forall_eq, validateLength, validateRegex, validateUrl,
    tooLong, tooShort]
  constructor
  · rintro ⟨-, -, h⟩
    split at h
    · assumption
    · cases h
    · cases h
  · intro h
    simp [h]

/-- **C79, refusal**: any other text is refused with `StopValidationError`, if the IDNA codec never yields an empty text. -/
theorem C79_url_refused (idna : List Char → Option (List Char)) (hidna : ∀ h a, idna h = some a → '\n' ∉ a ∧ a ≠ []) (fqdn : Bool) (app : Val) (s : String)
    (h : ¬ Full (IsUrl idna fqdn) s.toList) : validateUrl idna fqdn app (.str s) = .error (.field .stop ["invalid_url"]) := by
  have hn : validUrl idna fqdn s.toList ≠ .ok true := fun e => h ((validUrl_iff idna (fun h a e => (hidna h a e).1) fqdn _).1 e)
  have he : ∀ e, validUrl idna fqdn s.toList ≠ .error e := by
    intro e he
    unfold validUrl at he
    cases hy : (urlRegex.run (St.start s.toList)).head? with
    | none => rw [hy] at he; cases he
    | some y =>
      rw [hy] at he
      obtain ⟨sc, u, h, q, t, e', us, hs, ts, hsc, hu, hh, hq, ht, he', hus, hts, hc, heq⟩ := first_match hy
      simp only [hc] at he
      unfold urlCheck at he
      rw [groupOf_caps hts hus "scheme" (by simp), groupOf_caps hts hus "host6" (by simp), groupOf_caps hts hus "host4" (by simp),
        groupOf_caps hts hus "hostn" (by simp)] at he
      simp only [] at he
      split at he
      · rcases hh with ⟨a, ha, hac, rfl, rfl⟩ | ⟨h4, rfl⟩ | ⟨hn4, ⟨hne, hhc⟩, rfl⟩
        · cases he
        · cases he
        · have e6 : ((groupOf [("hostn", h)] "host6").or (groupOf [("scheme", sc)] "host6")) = none := rfl
          have e4 : ((groupOf [("hostn", h)] "host4").or (groupOf [("scheme", sc)] "host4")) = none := rfl
          have en : ((groupOf [("hostn", h)] "hostn").or (groupOf [("scheme", sc)] "hostn")) = some h := rfl
          rw [e6, e4, en] at he
          simp only [Option.getD_some] at he
          unfold hostnCheck asciiHost at he
          split at he
          · cases he
          · rename_i h0
            split at h0
            · cases h0; exact hne rfl
            · exact (hidna _ _ h0).2 rfl
          · cases he
      · cases he
  unfold validateUrl
  simp only []
  cases hv : validUrl idna fqdn s.toList with
  | error e => exact absurd hv (he e)
  | ok b =>
    cases b with
    | true => exact absurd hv hn
    | false => rfl

/-! ## The hypotheses are met -/

/-- An IDNA codec that refuses everything. -/
def noIdna : List Char → Option (List Char) := fun _ => none

theorem noIdna_ok : ∀ h a, noIdna h = some a → '\n' ∉ a ∧ a ≠ [] := fun _ _ h => by cases h

theorem sampleUrl : IsUrl noIdna true "HTTP://me:pw@www.example.com:8080/a@b?c=d#e".toList := by
  refine ⟨"HTTP".toList, "me:pw@".toList, "www.example.com".toList, ":8080".toList, "/a@b?c=d#e".toList, Or.inl ?_, Or.inr ⟨"me:pw".toList, ?_, ?_, ?_⟩, Or.inr (Or.inr ?_), Or.inr ?_, ?_, ?_⟩
  · unfold Spells; decide
  · decide
  · decide +kernel
  · decide
  · refine ⟨by decide, by decide +kernel, _, Or.inl ⟨by decide, rfl⟩, ["www".toList, "example".toList, "com".toList], by simp, ?_, by decide, Or.inl (by decide), ?_⟩
    · unfold IsHostLabel; decide
    · intro _
      exact ⟨by decide, "com".toList, rfl, Or.inl ⟨by decide, by decide⟩⟩
  · exact ⟨"8080".toList, by decide, by decide, by decide, by decide⟩
  · refine ⟨"/a@b".toList, "?c=d".toList, "#e".toList, Or.inr ⟨"a@b".toList, by decide +kernel, by decide⟩, Or.inr ⟨"c=d".toList, by decide +kernel, by decide⟩,
      Or.inr ⟨"e".toList, by decide +kernel, by decide⟩, by decide⟩
  · decide

example (app : Val) : Passes (urlType noIdna true) app "HTTP://me:pw@www.example.com:8080/a@b?c=d#e" :=
  (C79_url_exact noIdna (fun h a e => (noIdna_ok h a e).1) true app _).2 (Or.inl sampleUrl)

/-- The result of `valid_url`, for evaluation. -/
def validUrlB (fqdn : Bool) (s : String) : Bool :=
  match validUrl noIdna fqdn s.toList with
  | .ok b => b
  | .error _ => false

example : ¬ Full (IsUrl noIdna true) "ftp://example.com".toList := by
  rw [← validUrl_iff noIdna (fun h a e => (noIdna_ok h a e).1)]
  intro h
  have : validUrlB true "ftp://example.com" = true := by unfold validUrlB; rw [h]
  revert this; decide +kernel

/-- Boundary cases: ports of one digit are refused and five digits are never compared with 65535; an IPv4 address passes without a top-level domain; a number
that is no IPv4 address is looked at as a host name; a backslash is allowed in a name; IPv6 addresses with an embedded IPv4 address are refused. -/
theorem C79_examples :
    validUrlB true "http://example.com:8" = false ∧ validUrlB true "http://example.com:99999" = true ∧
    validUrlB true "http://1.2.3.4/" = true ∧ validUrlB true "http://1.2.3.456/" = false ∧ validUrlB false "http://1.2.3.456/" = true ∧
    validUrlB true "http://a\\b.com" = true ∧ validUrlB true "http://[::1]" = true ∧ validUrlB true "http://[::1.2.3.4]" = false ∧
    validUrlB true "http://localhost" = false ∧ validUrlB false "http://localhost" = true ∧ validUrlB true "http://example.com.\n" = true := by
  decide +kernel

end Verif.Types
