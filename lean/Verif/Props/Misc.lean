import Verif.Types.Misc
import Verif.Props.Number

/-!
# C62-C65: geo points, multilingual texts, enums and unions
-/
namespace Verif.Types
open Verif.Py
open Verif.Py.Re (chr opt rep)

/-! ## C62: geo points -/

/-- A coordinate that is a number (not NaN) between two bounds. -/
def Within (v : Val) (lo hi : Int) : Prop :=
  ∃ x, onLine v = some x ∧ (((lo : ℚ) : WithTop ℚ) : WithBot (WithTop ℚ)) ≤ x ∧ x ≤ (((hi : ℚ) : WithTop ℚ) : WithBot (WithTop ℚ))

/-- The value is NaN. -/
def IsNan (v : Val) : Prop := v = .flt .nan

theorem onLine_int (i : Int) : onLine (.int i) = some (((i : ℚ) : WithTop ℚ) : WithBot (WithTop ℚ)) := rfl

theorem onLine_float {v : Val} (h : isFloatOrInt v = true) (hn : ¬ IsNan v) : ∃ x, onLine v = some x := by
  cases v with
  | flt f =>
    cases f with
    | fin n k => exact ⟨_, rfl⟩
    | inf b => cases b <;> exact ⟨_, rfl⟩
    | nan => exact absurd rfl hn
  | int i => exact ⟨_, rfl⟩
  | bool b => cases b <;> exact ⟨_, rfl⟩
  | _ => cases h

theorem geoTest_ok (msg : Msg) (r : R Bool) (next : R Unit) : geoTest msg r next = .ok () ↔ r = .ok false ∧ next = .ok () := by
  unfold geoTest
  cases r with
  | error e => simp
  | ok b => cases b <;> simp [validErr]

theorem pyLt_false {v w : Val} {x y : WithBot (WithTop ℚ)} (h1 : onLine v = some x) (h2 : onLine w = some y) : pyLt v w = .ok false ↔ y ≤ x := by
  rw [pyLt_line h1 h2]
  by_cases h : x < y
  · simp [h]
  · simp [h, not_lt.1 h]

/-- The two coordinates of a point given as tuple, list or dict. -/
def Coords (v lat lon : Val) : Prop :=
  v = .tuple [lat, lon] ∨ v = .list [lat, lon] ∨ ∃ k k', v = .dict [(k, lat), (k', lon)]

theorem geoElements_iff (v lat lon : Val) : geoElements v = some [lat, lon] ↔ Coords v lat lon := by
  unfold Coords
  constructor
  · intro h
    cases v with
    | tuple xs => simp [geoElements] at h; simp [h]
    | list xs => simp [geoElements] at h; simp [h]
    | dict kvs =>
      right; right
      simp only [geoElements, Option.some.injEq] at h
      match kvs, h with
      | [(k, a), (k', b)], h =>
        simp at h
        exact ⟨k, k', by rw [h.1, h.2]⟩
    | _ => cases h
  · rintro (rfl | rfl | ⟨k, k', rfl⟩) <;> rfl

/-- **C62, conversion.**  `GeoPointType` accepts exactly tuples, lists and dicts of two ints or floats, and keeps them as they are. -/
theorem C62_conversion (app v w : Val) : geoType.toNative app v = .ok w ↔
    w = v ∧ ∃ lat lon, Coords v lat lon ∧ isFloatOrInt lat = true ∧ isFloatOrInt lon = true := by
  show geoNative v = .ok w ↔ _
  simp only [← geoElements_iff]
  unfold geoNative
  cases h : geoElements v with
  | none => simp [convErr]
  | some xs =>
    by_cases hl : xs.length = 2
    · match xs, hl with
      | [a, b], _ =>
        simp only [List.length_cons, List.length_nil, ne_eq]
        by_cases ha : isFloatOrInt a = true <;> by_cases hb : isFloatOrInt b = true
        · simp only [List.all_cons, ha, hb, List.all_nil, Bool.and_self, Bool.not_true, Bool.false_eq_true, if_false, not_true, Option.some.injEq]
          constructor
          · intro e; cases e; exact ⟨rfl, a, b, rfl, ha, hb⟩
          · rintro ⟨rfl, -⟩; rfl
        all_goals
          have hall : [a, b].all isFloatOrInt = false := by simp [ha, hb]
          simp only [hall, Bool.not_false, if_true, convErr, not_true, if_false]
          constructor
          · intro e; cases e
          · rintro ⟨-, x, y, e, hx, hy⟩
            cases e
            contradiction
    · simp only [ne_eq, hl, not_false_eq_true, if_true, convErr]
      constructor
      · intro h; cases h
      · rintro ⟨-, lat, lon, e, -⟩
        cases e
        exact absurd rfl hl

/-- **C62, bounds.**  A converted point passes the validators iff `-90 <= lat <= 90` and `-180 <= lon <= 180`, except that a coordinate
that is NaN passes as well. -/
theorem C62_bounds (app v lat lon : Val) (hv : Coords v lat lon) (h1 : isFloatOrInt lat = true) (h2 : isFloatOrInt lon = true) :
    (∀ f ∈ geoType.validators, f app v = .ok ()) ↔ (IsNan lat ∨ Within lat (-90) 90) ∧ (IsNan lon ∨ Within lon (-180) 180) := by
  have hc : ∀ {v : Val} (lo hi : Int), isFloatOrInt v = true →
      ((pyLt v (.int lo) = .ok false ∧ pyLt (.int hi) v = .ok false) ↔ IsNan v ∨ Within v lo hi) := by
    intro v lo hi hf
    by_cases hn : IsNan v
    · simp only [hn, true_or, iff_true]
      rw [show v = .flt .nan from hn]
      exact ⟨rfl, rfl⟩
    · obtain ⟨x, hx⟩ := onLine_float hf hn
      rw [pyLt_false hx (onLine_int _), pyLt_false (onLine_int _) hx]
      simp only [hn, false_or]
      unfold Within
      constructor
      · intro h'; exact ⟨x, hx, h'⟩
      · rintro ⟨z, hz, h'⟩
        rw [hx] at hz; cases hz; exact h'
  rw [← hc _ _ h1, ← hc _ _ h2]
  simp only [geoType, List.mem_singleton, forall_eq, validateGeo, (geoElements_iff _ _ _).2 hv, geoTest_ok]
  tauto

/-- The keys of a dict do not matter: the first value is the latitude. -/
theorem C62_dict_keys_ignored (app lat lon : Val) (k k' : Key) :
    validateGeo app (.dict [(k, lat), (k', lon)]) = validateGeo app (.tuple [lat, lon]) := rfl

/-! ## C63: multilingual texts -/

/-- A locale name as used to look up a text. -/
def IsLocale (l : Val) : Prop := ∃ s, l = .str s

/-- The value has a text for the locale. -/
def HasLocale (d : List (Key × Val)) (l : Val) : Prop := ∃ s x, l = .str s ∧ Dict.get? d (.str s) = some x

/-- The locales a value (text, list or tuple of texts, or nothing) asks for. -/
inductive Asks : Val → List Val → Prop
  | none : Asks .none []
  | undef : Asks .undef []
  | empty : Asks (.str "") []
  | one (s) (h : s ≠ "") : Asks (.str s) [.str s]
  | list (ls) (h : ∀ l ∈ ls, IsLocale l) : Asks (.list ls) ls
  | tuple (ls) (h : ∀ l ∈ ls, IsLocale l) : Asks (.tuple ls) ls

theorem Asks.locales {v : Val} {ls : List Val} (h : Asks v ls) : localesOf v = some ls := by
  cases h with
  | none => rfl
  | undef => rfl
  | empty => rfl
  | one s h => simp [localesOf, Val.truthy, h]
  | list ls h => cases ls <;> simp [localesOf, Val.truthy]
  | tuple ls h => cases ls <;> simp [localesOf, Val.truthy]

theorem Asks.names {v : Val} {ls : List Val} (h : Asks v ls) : ∀ l ∈ ls, IsLocale l := by
  cases h with
  | none => simp
  | undef => simp
  | empty => simp
  | one s h => intro l hl; rw [List.mem_singleton] at hl; exact ⟨s, hl⟩
  | list ls h => exact h
  | tuple ls h => exact h

theorem findLocale_ok (d : List (Key × Val)) (x : Val) : ∀ (ls : List Val), (∀ l ∈ ls, IsLocale l) →
    (findLocale d ls = .ok x ↔ ∃ pre s post, ls = pre ++ .str s :: post ∧ (∀ l ∈ pre, ¬ HasLocale d l) ∧ Dict.get? d (.str s) = some x) := by
  intro ls
  induction ls with
  | nil => intro _; simp [findLocale, convErr]
  | cons l ls ih =>
    intro h
    obtain ⟨s, rfl⟩ := h l (by simp)
    have ih := ih (fun l hl => h l (by simp [hl]))
    simp only [findLocale, unhashable, keyOfVal]
    cases hg : Dict.get? d (.str s) with
    | some y =>
      constructor
      · rintro h; cases h
        exact ⟨[], s, ls, rfl, by simp, hg⟩
      · rintro ⟨pre, s', post, e, hp, hs⟩
        cases pre with
        | nil => cases e; rw [hg] at hs; cases hs; rfl
        | cons p pre =>
          cases e
          exact absurd ⟨s, y, rfl, hg⟩ (hp (.str s) (by simp))
    | none =>
      show findLocale d ls = .ok x ↔ _
      rw [ih]
      constructor
      · rintro ⟨pre, s', post, rfl, hp, hs⟩
        refine ⟨.str s :: pre, s', post, rfl, ?_, hs⟩
        intro l hl
        rcases List.mem_cons.1 hl with rfl | hl
        · rintro ⟨_, _, e, e'⟩; cases e; rw [hg] at e'; cases e'
        · exact hp l hl
      · rintro ⟨pre, s', post, e, hp, hs⟩
        cases pre with
        | nil => cases e; rw [hg] at hs; cases hs
        | cons p pre =>
          cases e
          exact ⟨pre, s', post, rfl, fun l hl => hp l (by simp [hl]), hs⟩

theorem findLocale_missing (d : List (Key × Val)) : ∀ (ls : List Val), (∀ l ∈ ls, IsLocale l) → (∀ l ∈ ls, ¬ HasLocale d l) →
    findLocale d ls = convErr "locale_not_found" := by
  intro ls
  induction ls with
  | nil => intro _ _; rfl
  | cons l ls ih =>
    intro h h'
    obtain ⟨s, rfl⟩ := h l (by simp)
    have hg : Dict.get? d (.str s) = none := by
      cases hg : Dict.get? d (.str s) with
      | none => rfl
      | some y => exact absurd ⟨s, y, rfl, hg⟩ (h' (.str s) (by simp))
    simp only [findLocale, unhashable, keyOfVal, hg]
    exact ih (fun l hl => h l (by simp [hl])) (fun l hl => h' l (by simp [hl]))

/-- The locale option of the context: `app_data['locale']`. -/
def ctxLocale (app : List (Key × Val)) : Val := (Dict.get? app (.str "locale")).getD .none

/-- **C63.**  With texts for all locales, exporting succeeds with `t` iff `t` is the text of the first locale that the value has, in the
order: locales of the context, then the field's default locales. -/
theorem C63_first_available (dflt : Val) (re locRe : Option (String → Bool)) (max min : Option Nat) (app d : List (Key × Val)) (as bs : List Val)
    (ha : Asks (ctxLocale app) as) (hb : Asks dflt bs) (hd : ∀ k x, Dict.get? d k = some x → ∃ s, x = .str s) (t : String) :
    (multiType dflt re max min locRe).toPrimitive (.dict app) (.dict d) = .ok (.str t) ↔
      ∃ pre l post, as ++ bs = pre ++ .str l :: post ∧ (∀ p ∈ pre, ¬ HasLocale d p) ∧ Dict.get? d (.str l) = some (.str t) := by
  have hL : ∀ l ∈ as ++ bs, IsLocale l := by
    intro l hl
    rcases List.mem_append.1 hl with h | h
    · exact ha.names l h
    · exact hb.names l h
  have e : (multiType dflt re max min locRe).toPrimitive (.dict app) (.dict d) = multiPrimitive dflt (.dict app) (.dict d) := rfl
  have hc : contextLocale (.dict app) = ctxLocale app := rfl
  rw [e, multiPrimitive, hc, ha.locales, hb.locales]
  simp only
  cases hn : (as ++ bs).isEmpty with
  | true =>
    rw [List.isEmpty_iff] at hn
    rw [hn]
    simp [convErr]
  | false =>
    simp only [Bool.false_eq_true, if_false]
    rw [← findLocale_ok d (.str t) _ hL]
    cases hf : findLocale d (as ++ bs) with
    | error e => simp
    | ok x =>
      obtain ⟨pre, s, post, -, -, hs⟩ := (findLocale_ok d x _ hL).1 hf
      obtain ⟨u, rfl⟩ := hd _ _ hs
      simp [localizedText]

/-- **C63, failure.**  Exporting fails, with a `ConversionError`, iff the value has none of the locales. -/
theorem C63_fails_iff_none (dflt : Val) (re locRe : Option (String → Bool)) (max min : Option Nat) (app d : List (Key × Val)) (as bs : List Val)
    (ha : Asks (ctxLocale app) as) (hb : Asks dflt bs) (hd : ∀ k x, Dict.get? d k = some x → ∃ s, x = .str s) :
    (∀ l ∈ as ++ bs, ¬ HasLocale d l) ↔
      ∃ m, (multiType dflt re max min locRe).toPrimitive (.dict app) (.dict d) = .error (.field .conv m) := by
  have hL : ∀ l ∈ as ++ bs, IsLocale l := by
    intro l hl
    rcases List.mem_append.1 hl with h | h
    · exact ha.names l h
    · exact hb.names l h
  have e : (multiType dflt re max min locRe).toPrimitive (.dict app) (.dict d) = multiPrimitive dflt (.dict app) (.dict d) := rfl
  have hc : contextLocale (.dict app) = ctxLocale app := rfl
  rw [e, multiPrimitive, hc, ha.locales, hb.locales]
  simp only
  cases hn : (as ++ bs).isEmpty with
  | true =>
    rw [List.isEmpty_iff] at hn
    rw [hn]
    simp [convErr]
  | false =>
    simp only [Bool.false_eq_true, if_false]
    constructor
    · intro h
      rw [findLocale_missing d _ hL h]
      exact ⟨_, rfl⟩
    · rintro ⟨m, h⟩ l hl ⟨s, x, rfl, hs⟩
      cases hf : findLocale d (as ++ bs) with
      | ok x =>
        rw [hf] at h
        obtain ⟨pre, s, post, -, -, hs⟩ := (findLocale_ok d x _ hL).1 hf
        obtain ⟨u, rfl⟩ := hd _ _ hs
        cases h
      | error e =>
        -- the first locale the value has would have been found
        have : ∃ x, findLocale d (as ++ bs) = .ok x := by
          clear h hf hn
          generalize as ++ bs = L at hL hl
          induction L with
          | nil => cases hl
          | cons a L ih =>
            obtain ⟨s', rfl⟩ := hL a (by simp)
            simp only [findLocale, unhashable, keyOfVal]
            cases hg : Dict.get? d (.str s') with
            | some y => exact ⟨y, rfl⟩
            | none =>
              rcases List.mem_cons.1 hl with e | hl
              · cases e; rw [hg] at hs; cases hs
              · exact ih (fun l hl => hL l (by simp [hl])) hl
        obtain ⟨y, hy⟩ := this
        rw [hf] at hy; cases hy

/-- The default locale pattern: two lower-case letters, optionally followed by an underscore and two upper-case letters - and, because the
pattern says `(:?` instead of `(?:`, an optional colon before the underscore. -/
theorem C63_locale_names (s : List Char) : localeRegex.test s = true ↔
    Full (fun w => ∃ a b, (∀ c ∈ [a, b], 97 ≤ c.toNat ∧ c.toNat ≤ 122) ∧ (w = [a, b] ∨
      ∃ x y, (∀ c ∈ [x, y], 65 ≤ c.toNat ∧ c.toNat ≤ 90) ∧ (w = [a, b, '_', x, y] ∨ w = [a, b, ':', '_', x, y]))) s := by
  rw [localeRegex, Re.anchored_iff _ rfl]
  unfold Full
  have key : ∀ w, (Re.seq (rep 2 (charRange 'a' 'z')) (opt (.seq (opt (chr ':')) (.seq (chr '_') (rep 2 (charRange 'A' 'Z')))))).L w ↔
      ∃ a b, (∀ c ∈ [a, b], 97 ≤ c.toNat ∧ c.toNat ≤ 122) ∧ (w = [a, b] ∨
      ∃ x y, (∀ c ∈ [x, y], 65 ≤ c.toNat ∧ c.toNat ≤ 90) ∧ (w = [a, b, '_', x, y] ∨ w = [a, b, ':', '_', x, y])) := by
    intro w
    have two : ∀ (lo hi : Char) (u : List Char), (rep 2 (charRange lo hi)).L u ↔ ∃ a b, u = [a, b] ∧ ∀ c ∈ [a, b], lo.toNat ≤ c.toNat ∧ c.toNat ≤ hi.toNat := by
      intro lo hi u
      rw [charRange, Re.L_rep_cls]
      constructor
      · rintro ⟨hl, h⟩
        match u, hl with
        | [a, b], _ => exact ⟨a, b, rfl, fun c hc => by simpa using h c hc⟩
      · rintro ⟨a, b, rfl, h⟩
        exact ⟨rfl, fun c hc => by simpa using h c hc⟩
    simp only [Re.L, Re.L_opt, Re.L_chr, two]
    have na : 'a'.toNat = 97 := rfl
    have nz : 'z'.toNat = 122 := rfl
    have nA : 'A'.toNat = 65 := rfl
    have nZ : 'Z'.toNat = 90 := rfl
    simp only [na, nz, nA, nZ]
    constructor
    · rintro ⟨u, v, ⟨a, b, rfl, hab⟩, (⟨p, q, hp, ⟨r, t, rfl, ⟨x, y, rfl, hxy⟩, rfl⟩, rfl⟩ | rfl), rfl⟩
      · refine ⟨a, b, hab, Or.inr ⟨x, y, hxy, ?_⟩⟩
        rcases hp with rfl | rfl
        · exact Or.inr rfl
        · exact Or.inl rfl
      · exact ⟨a, b, hab, Or.inl rfl⟩
    · rintro ⟨a, b, hab, (rfl | ⟨x, y, hxy, (rfl | rfl)⟩)⟩
      · exact ⟨[a, b], [], ⟨a, b, rfl, hab⟩, Or.inr rfl, rfl⟩
      · exact ⟨[a, b], ['_', x, y], ⟨a, b, rfl, hab⟩, Or.inl ⟨[], ['_', x, y], Or.inr rfl, ⟨['_'], [x, y], rfl, ⟨x, y, rfl, hxy⟩, rfl⟩, rfl⟩, rfl⟩
      · exact ⟨[a, b], [':', '_', x, y], ⟨a, b, rfl, hab⟩, Or.inl ⟨[':'], ['_', x, y], Or.inl rfl, ⟨['_'], [x, y], rfl, ⟨x, y, rfl, hxy⟩, rfl⟩, rfl⟩, rfl⟩
  simp only [key]

/-- An int is an allowed text for export (`allow_casts`), but validating it raises `TypeError`, which is no validation error. -/
theorem C63_int_text_breaks_validation :
    (multiType (.str "en")).toPrimitive (.dict []) (.dict [(.str "en", .int 5)]) = .ok (.str "5") ∧
    multiLength none none .none (.dict [(.str "en", .int 5)]) = .error (.other "TypeError") := ⟨rfl, rfl⟩

/-! ## C64: enums -/

/-- What Python guarantees about an enum class: distinct names; members have values that are not members of it; values of different members
differ (equal values make aliases). -/
structure EnumDef.WF (E : EnumDef) : Prop where
  names : (E.members.map Prod.fst).Nodup
  alias_new : ∀ a ∈ E.aliases, a.1 ∉ E.members.map Prod.fst
  distinct : E.members.Pairwise fun m m' => Val.pyEq m.2 m'.2 = false
  plain : ∀ m ∈ E.members, E.has m.2 = false

theorem get?_none_of {α : Type} : ∀ (d : List (String × α)) (k : String), (∀ a ∈ d, a.1 ≠ k) → Dict.get? d k = none := by
  intro d k
  induction d with
  | nil => intro _; rfl
  | cons a d ih =>
    intro h
    rw [Dict.get?_cons, if_neg (h a (by simp))]
    exact ih fun x hx => h x (by simp [hx])

theorem byName_member {E : EnumDef} (hE : E.WF) {m : String × Val} (hm : m ∈ E.members) : E.byName m.1 = some m := by
  have ha : Dict.get? E.aliases m.1 = none :=
    get?_none_of _ _ fun a h e => hE.alias_new a h (by rw [e]; exact List.mem_map_of_mem hm)
  unfold EnumDef.byName
  rw [ha]
  have hn := hE.names
  clear hE ha
  generalize E.members = ms at hn hm
  induction ms with
  | nil => cases hm
  | cons x ms ih =>
    rw [List.map_cons, List.nodup_cons] at hn
    rcases List.mem_cons.1 hm with rfl | hm
    · simp
    · rw [List.find?_cons_of_neg]
      · exact ih hn.2 hm
      · simp only [Option.getD_none, beq_iff_eq]
        intro e
        exact hn.1 (by rw [e]; exact List.mem_map_of_mem hm)

/-- **C64, by name.**  Every member exports to its name, and the name imports to the member; with `use_values` too. -/
theorem C64_name_roundtrip (str : Val → String) (E : EnumDef) (hE : E.WF) (useValues : Bool) (eapp iapp : Val) (m : String × Val) (hm : m ∈ E.members) :
    (enumType str E false).toPrimitive eapp (E.obj m) = .ok (.str m.1) ∧ (enumType str E useValues).toNative iapp (.str m.1) = .ok (E.obj m) := by
  refine ⟨rfl, ?_⟩
  show enumNative E useValues (.str m.1) = _
  simp [enumNative, EnumDef.has, EnumDef.findByName, byName_member hE hm]

/-- **C64, aliases.**  An alias imports to the member it stands for. -/
theorem C64_alias (str : Val → String) (E : EnumDef) (hE : E.WF) (useValues : Bool) (iapp : Val) (a : String) (m : String × Val) (hm : m ∈ E.members)
    (ha : Dict.get? E.aliases a = some m.1) : (enumType str E useValues).toNative iapp (.str a) = .ok (E.obj m) := by
  have h0 : Dict.get? E.aliases m.1 = none :=
    get?_none_of _ _ fun a h e => hE.alias_new a h (by rw [e]; exact List.mem_map_of_mem hm)
  have := byName_member hE hm
  unfold EnumDef.byName at this
  rw [h0] at this
  show enumNative E useValues (.str a) = _
  simp only [enumNative, EnumDef.has, EnumDef.findByName, EnumDef.byName, ha, Option.getD_some]
  simp only [Option.getD_none] at this
  simp [this]

theorem byValue_member {E : EnumDef} (hE : E.WF) {m : String × Val} (hm : m ∈ E.members) (hr : Val.pyEq m.2 m.2 = true) : E.byValue m.2 = some m := by
  unfold EnumDef.byValue
  have hd := hE.distinct
  clear hE
  generalize E.members = ms at hd hm
  induction ms with
  | nil => cases hm
  | cons x ms ih =>
    rw [List.pairwise_cons] at hd
    rcases List.mem_cons.1 hm with rfl | hm
    · rw [List.find?_cons_of_pos]; exact hr
    · rw [List.find?_cons_of_neg]
      · exact ih hd.2 hm
      · rw [hd.1 m hm]; simp

theorem byValue_some {E : EnumDef} {m : String × Val} (h : E.byValue m.2 = some m) : Val.pyEq m.2 m.2 = true := by
  simpa using List.find?_some h

theorem obj_inj {E : EnumDef} (hE : E.WF) {m m' : String × Val} (hm : m ∈ E.members) (hm' : m' ∈ E.members) (h : E.obj m = E.obj m') : m = m' := by
  have h1 := byName_member hE hm
  have h2 := byName_member hE hm'
  have : m.1 = m'.1 := by unfold EnumDef.obj at h; simp only [Val.enum.injEq] at h; exact h.2.1
  rw [this, h2] at h1
  cases h1; rfl

/-- **C64, by value.**  With `use_values` every member exports to its value; the value imports to the member iff it is not the name (or alias) of
another member, and it equals itself (unlike NaN). -/
theorem C64_value_roundtrip (str : Val → String) (E : EnumDef) (hE : E.WF) (eapp iapp : Val) (m : String × Val) (hm : m ∈ E.members) :
    (enumType str E true).toPrimitive eapp (E.obj m) = .ok m.2 ∧
    ((enumType str E true).toNative iapp m.2 = .ok (E.obj m) ↔
      (∀ s, m.2 = .str s → ∀ m', E.byName s = some m' → m' = m) ∧ Val.pyEq m.2 m.2 = true) := by
  refine ⟨rfl, ?_⟩
  show enumNative E true m.2 = _ ↔ _
  unfold enumNative
  rw [hE.plain m hm]
  simp only [Bool.false_eq_true, if_false, if_true]
  cases hf : E.findByName m.2 with
  | none =>
    have hno : ∀ s, m.2 = .str s → E.byName s = none := by intro s hs; rw [hs] at hf; exact hf
    cases hr : Val.pyEq m.2 m.2 with
    | true =>
      rw [byValue_member hE hm hr]
      simp only [and_true, true_iff]
      intro s hs m' h; rw [hno s hs] at h; cases h
    | false =>
      simp only [Bool.false_eq_true, and_false, iff_false]
      cases hb : E.byValue m.2 with
      | none => simp [convErr]
      | some m' =>
        intro h
        have h' : E.obj m' = E.obj m := Except.ok.inj h
        have := obj_inj hE (List.mem_of_find?_eq_some hb) hm h'
        subst this
        rw [byValue_some hb] at hr; cases hr
  | some m' =>
    cases hv : m.2 with
    | str s =>
      rw [hv] at hf
      have hb : E.byName s = some m' := hf
      have he : Val.pyEq (.str s) (.str s) = true := by simp [Val.pyEq]
      simp only [Val.str.injEq, he, and_true]
      constructor
      · intro h s' hs m'' hm''
        subst hs
        rw [hb] at hm''; cases hm''
        have h' : E.obj m' = E.obj m := Except.ok.inj h
        exact obj_inj hE (List.mem_of_find?_eq_some hb) hm h'
      · intro h
        rw [h s rfl m' hb]
    | _ => rw [hv] at hf; cases hf

/-- **C64, only members.**  Whatever is accepted is a member of the class: the value itself, or the member it names, or with `use_values` a
member whose value equals it; everything else is refused with `ConversionError`. -/
theorem C64_only_members (str : Val → String) (E : EnumDef) (useValues : Bool) (app v : Val) :
    (∃ w, (enumType str E useValues).toNative app v = .ok w ∧
      ((E.has v = true ∧ w = v) ∨ ∃ m ∈ E.members, w = E.obj m ∧ ((∃ s, v = .str s ∧ E.byName s = some m) ∨ (useValues = true ∧ Val.pyEq m.2 v = true)))) ∨
    ((enumType str E useValues).toNative app v = convErr "convert" ∧ E.has v = false ∧ (∀ s, v = .str s → E.byName s = none) ∧
      (useValues = true → ∀ m ∈ E.members, Val.pyEq m.2 v = false)) := by
  show (∃ w, enumNative E useValues v = .ok w ∧ _) ∨ (enumNative E useValues v = _ ∧ _)
  unfold enumNative
  cases hh : E.has v with
  | true => exact Or.inl ⟨v, by simp, Or.inl ⟨rfl, rfl⟩⟩
  | false =>
    simp only [Bool.false_eq_true, if_false]
    cases hf : E.findByName v with
    | some m =>
      left
      refine ⟨E.obj m, rfl, Or.inr ⟨m, ?_, rfl, Or.inl ?_⟩⟩
      all_goals
        cases v with
        | str s => first | exact List.mem_of_find?_eq_some hf | exact ⟨s, rfl, hf⟩
        | _ => cases hf
    | none =>
      have hno : ∀ s, v = .str s → E.byName s = none := by rintro s rfl; exact hf
      cases hu : useValues with
      | false => right; exact ⟨rfl, trivial, hno, by simp⟩
      | true =>
        simp only [if_true]
        cases hb : E.byValue v with
        | some m =>
          left
          exact ⟨E.obj m, rfl, Or.inr ⟨m, List.mem_of_find?_eq_some hb, rfl, Or.inr ⟨trivial, by simpa using List.find?_some hb⟩⟩⟩
        | none =>
          right
          refine ⟨rfl, trivial, hno, fun _ m hm => ?_⟩
          have := List.find?_eq_none.1 hb m hm
          simpa using this

/-- `class E(Enum): A = 'B'; B = 'C'`. -/
def crossed : EnumDef := { cls := "E", members := [("A", .str "B"), ("B", .str "C")] }

/-- **C64, what fails.**  With `use_values` the member `A` exports to `'B'`, which imports to the member `B`. -/
theorem C64_counterexample_value_is_name (str : Val → String) (app : Val) :
    (enumType str crossed true).toPrimitive app (crossed.obj ("A", .str "B")) = .ok (.str "B") ∧
    (enumType str crossed true).toNative app (.str "B") = .ok (crossed.obj ("B", .str "C")) := ⟨rfl, rfl⟩

/-- ... and a member with value NaN cannot be imported from its value. -/
theorem C64_counterexample_nan (str : Val → String) (app : Val) :
    (enumType str { cls := "E", members := [("A", .flt .nan)] } true).toNative app (.flt .nan) = convErr "convert" := rfl

/-! ## C65: unions -/

/-- The member refuses the value with a `ConversionError`. -/
def Refuses (m : Member) (app v : Val) : Prop := ∃ ms, m.leaf.toNative app v = .error (.field .conv ms)

theorem unionFirst_some (app v : Val) (m : Member) (w : Val) : ∀ (ms : List Member), unionFirst app v ms = .ok (some (m, w)) ↔
    ∃ pre post, ms = pre ++ m :: post ∧ (∀ x ∈ pre, Refuses x app v) ∧ m.leaf.toNative app v = .ok w := by
  intro ms
  induction ms with
  | nil => simp [unionFirst]
  | cons a ms ih =>
    cases h : a.leaf.toNative app v with
    | ok u =>
      simp only [unionFirst, h]
      constructor
      · intro h'; cases h'; exact ⟨[], ms, rfl, by simp, h⟩
      · rintro ⟨pre, post, e, hp, hm⟩
        cases pre with
        | nil => cases e; rw [h] at hm; cases hm; rfl
        | cons b pre =>
          cases e
          obtain ⟨m', hm'⟩ := hp a (by simp)
          rw [h] at hm'; cases hm'
    | error e =>
      by_cases hc : ∃ ms', e = .field .conv ms'
      · obtain ⟨ms', rfl⟩ := hc
        simp only [unionFirst, h, ih]
        constructor
        · rintro ⟨pre, post, rfl, hp, hm⟩
          refine ⟨a :: pre, post, rfl, ?_, hm⟩
          intro x hx
          rcases List.mem_cons.1 hx with rfl | hx
          · exact ⟨_, h⟩
          · exact hp x hx
        · rintro ⟨pre, post, e, hp, hm⟩
          cases pre with
          | nil => cases e; rw [h] at hm; cases hm
          | cons b pre => cases e; exact ⟨pre, post, rfl, fun x hx => hp x (by simp [hx]), hm⟩
      · have hu : unionFirst app v (a :: ms) = .error e := by
          rw [unionFirst, h]
          match e, hc with
          | .field .conv ms', hc => exact absurd ⟨_, rfl⟩ hc
          | .field .valid _, _ => rfl
          | .field .stop _, _ => rfl
          | .compound _, _ => rfl
          | .data _ _, _ => rfl
          | .other _, _ => rfl
          | .fuel, _ => rfl
        rw [hu]
        constructor
        · intro h'; cases h'
        · rintro ⟨pre, post, e', hp, hm⟩
          cases pre with
          | nil => cases e'; rw [h] at hm; cases hm
          | cons b pre =>
            cases e'
            obtain ⟨m', hm'⟩ := hp a (by simp)
            rw [h] at hm'; cases hm'
            exact absurd ⟨_, rfl⟩ hc

theorem unionFirst_none (app v : Val) : ∀ (ms : List Member), unionFirst app v ms = .ok none ↔ ∀ x ∈ ms, Refuses x app v := by
  intro ms
  induction ms with
  | nil => simp [unionFirst]
  | cons a ms ih =>
    rw [unionFirst]
    simp only [List.mem_cons, forall_eq_or_imp]
    cases h : a.leaf.toNative app v with
    | ok u =>
      simp only [Refuses, h]
      constructor
      · intro h'; cases h'
      · rintro ⟨⟨_, h'⟩, -⟩; cases h'
    | error e =>
      match e with
      | .field .conv ms' => simp only [ih, Refuses, h]; simp
      | .field .valid _ => simp [Refuses, h]
      | .field .stop _ => simp [Refuses, h]
      | .compound _ => simp [Refuses, h]
      | .data _ _ => simp [Refuses, h]
      | .other _ => simp [Refuses, h]
      | .fuel => simp [Refuses, h]

/-- Members of different classes: the union keeps them all, in order. -/
theorem unionMembers_distinct (ms : List Member) (h : (ms.map Member.cls).Nodup) : unionMembers ms = ms := by
  have set_new : ∀ (d : Dict String Member) (k : String) (m : Member), (∀ a ∈ d, a.1 ≠ k) → Dict.set d k m = d ++ [(k, m)] := by
    intro d k m
    induction d with
    | nil => intro _; rfl
    | cons a d ih =>
      intro h
      obtain ⟨a1, a2⟩ := a
      rw [Dict.set, if_neg (h (a1, a2) (by simp)), ih fun x hx => h x (by simp [hx])]
      rfl
  have key : ∀ (ms : List Member) (d : Dict String Member), (∀ a ∈ d, a.1 ∉ ms.map Member.cls) → (ms.map Member.cls).Nodup →
      ms.foldl (fun (d : Dict String Member) m => d.set m.cls m) d = d ++ ms.map fun m => (m.cls, m) := by
    intro ms
    induction ms with
    | nil => intro d _ _; simp
    | cons m ms ih =>
      intro d hd hn
      rw [List.map_cons, List.nodup_cons] at hn
      rw [List.foldl_cons, set_new d m.cls m (fun a ha e => hd a ha (by simp [e])), ih]
      · simp
      · intro a ha
        rcases List.mem_append.1 ha with ha | ha
        · exact fun hc => hd a ha (by rw [List.map_cons]; exact List.mem_cons_of_mem _ hc)
        · rw [List.mem_singleton] at ha; subst ha; exact hn.1
      · exact hn.2
  unfold unionMembers
  rw [key ms [] (by simp) h]
  simp [Function.comp_def]

/-- **C65.**  A union of members of different classes converts with the first member that accepts the value, all members
before it having refused it with `ConversionError`. (Of two members of one class only the last counts, and another exception of a member ends the search: see the counterexamples.) -/
theorem C65_first_accepting (ms : List Member) (hd : (ms.map Member.cls).Nodup) (app v w : Val) :
    (unionType ms).toNative app v = .ok w ↔
      ∃ pre m post, ms = pre ++ m :: post ∧ (∀ x ∈ pre, Refuses x app v) ∧ m.leaf.toNative app v = .ok w := by
  show unionNative (unionResolve none (unionMembers ms) app v) = .ok w ↔ _
  rw [unionMembers_distinct ms hd, unionResolve]
  cases h : unionFirst app v ms with
  | error e =>
    simp only
    constructor
    · intro h'; cases h'
    · rintro ⟨pre, m, post, h'⟩
      rw [(unionFirst_some app v m w ms).2 ⟨pre, post, h'⟩] at h; cases h
  | ok o =>
    cases o with
    | none =>
      constructor
      · intro h'; cases h'
      · rintro ⟨pre, m, post, h'⟩
        rw [(unionFirst_some app v m w ms).2 ⟨pre, post, h'⟩] at h; cases h
    | some r =>
      obtain ⟨m, u⟩ := r
      constructor
      · intro h'; cases h'
        obtain ⟨pre, post, h'⟩ := (unionFirst_some app v m w ms).1 h
        exact ⟨pre, m, post, h'⟩
      · rintro ⟨pre, m', post, h'⟩
        rw [(unionFirst_some app v m' w ms).2 ⟨pre, post, h'⟩] at h; cases h; rfl

/-- **C65, failure.**  If every member refuses with `ConversionError`, so does the union; and if the union refuses with its own error, then
every member has refused. -/
theorem C65_all_refuse (ms : List Member) (hd : (ms.map Member.cls).Nodup) (app v : Val)
    (ht : ∀ m ∈ ms, Refuses m app v ∨ ∃ w, m.leaf.toNative app v = .ok w) :
    (∀ m ∈ ms, Refuses m app v) ↔ ∃ e, (unionType ms).toNative app v = .error e := by
  show _ ↔ ∃ e, unionNative (unionResolve none (unionMembers ms) app v) = Except.error e
  rw [unionMembers_distinct ms hd, unionResolve]
  constructor
  · intro h
    rw [(unionFirst_none app v ms).2 h]
    exact ⟨_, rfl⟩
  · rintro ⟨e, h⟩
    rw [← unionFirst_none app v ms]
    clear hd
    induction ms with
    | nil => rfl
    | cons a ms ih =>
      have hta := ht a (by simp)
      rcases hta with ⟨m', hm'⟩ | ⟨w, hw⟩
      · have e1 : unionFirst app v (a :: ms) = unionFirst app v ms := by rw [unionFirst, hm']
        rw [e1] at h ⊢
        exact ih (fun x hx => ht x (by simp [hx])) h
      · have e1 : unionFirst app v (a :: ms) = .ok (some (a, w)) := by rw [unionFirst, hw]
        rw [e1] at h
        cases h

/-- The error of a union all of whose members refuse is a `ConversionError`. -/
theorem C65_conversion_error (ms : List Member) (hd : (ms.map Member.cls).Nodup) (app v : Val) (h : ∀ m ∈ ms, Refuses m app v) :
    (unionType ms).toNative app v = convErr "convert" := by
  show unionNative (unionResolve none (unionMembers ms) app v) = _
  rw [unionMembers_distinct ms hd, unionResolve, (unionFirst_none app v ms).2 h]
  rfl

/-- **C65, validation and export** use that same member. -/
theorem C65_same_member (ms : List Member) (hd : (ms.map Member.cls).Nodup) (app v w : Val) (pre post : List Member) (m : Member)
    (hms : ms = pre ++ m :: post) (hp : ∀ x ∈ pre, Refuses x app v) (hm : m.leaf.toNative app v = .ok w) :
    (∀ g, (unionType ms).override = some g → ∀ convert, g convert app v = memberValidate m convert app v) ∧
    (unionType ms).toPrimitive app v = m.leaf.toPrimitive app v := by
  have hr : unionResolve none (unionMembers ms) app v = .ok (m, w) := by
    rw [unionMembers_distinct ms hd, unionResolve, (unionFirst_some app v m w ms).2 ⟨pre, post, hms, hp, hm⟩]
  constructor
  · intro g hg convert
    have : (unionType ms).override = some fun convert app v => unionValidate convert app v (unionResolve none (unionMembers ms) app v) := rfl
    rw [this] at hg
    cases hg
    show unionValidate convert app v (unionResolve none (unionMembers ms) app v) = _
    rw [hr]; rfl
  · show unionPrimitive app v (unionResolve none (unionMembers ms) app v) = _
    rw [hr]; rfl

/-- A `resolver` that names a class chooses that member, whatever the others say. -/
theorem C65_resolver (ms : List Member) (hd : (ms.map Member.cls).Nodup) (f : Val → Option String) (app v w : Val) :
    (unionType ms (some f)).toNative app v = .ok w ↔ ∃ m ∈ ms, f v = some m.cls ∧ m.leaf.toNative app v = .ok w := by
  show unionNative (unionResolve (some f) (unionMembers ms) app v) = .ok w ↔ _
  rw [unionMembers_distinct ms hd, unionResolve]
  cases hf : f v with
  | none =>
    constructor
    · intro h; cases h
    · rintro ⟨m, _, h, _⟩; cases h
  | some c =>
    simp only
    cases h : ms.find? fun m => m.cls == c with
    | none =>
      simp only
      constructor
      · intro h'; cases h'
      · rintro ⟨m, hm, e, -⟩
        have := List.find?_eq_none.1 h m hm
        cases e
        simp at this
    | some m =>
      have hmem := List.mem_of_find?_eq_some h
      have hc : m.cls = c := by simpa using List.find?_some h
      have huniq : ∀ m' ∈ ms, m'.cls = c → m' = m := by
        intro m' hm' e
        exact List.inj_on_of_nodup_map hd hm' hmem (by rw [e, hc])
      simp only
      constructor
      · intro h'
        refine ⟨m, hmem, by rw [hc], ?_⟩
        cases hm : m.leaf.toNative app v with
        | ok u => rw [hm] at h'; cases h'; rfl
        | error e =>
          rw [hm] at h'
          match e, h' with
          | .field .conv ms', h' => cases h'
          | .field .valid _, h' => cases h'
          | .field .stop _, h' => cases h'
          | .compound _, h' => cases h'
          | .data _ _, h' => cases h'
          | .other _, h' => cases h'
          | .fuel, h' => cases h'
      · rintro ⟨m', hm', e, hw⟩
        have := huniq m' hm' (by cases e; rfl)
        subst this
        rw [hw]; rfl

/-- The member types used below. -/
def mInt : Member := { cls := "IntType", leaf := intType }
/-- `BooleanType()` -/
def mBool : Member := { cls := "BooleanType", leaf := booleanType }
/-- `StringType(max_length=n)` -/
def mStr (n : Nat) : Member := { cls := "StringType", leaf := stringType (max := some n) }
/-- `MD5Type()` -/
def mMd5 : Member := { cls := "MD5Type", leaf := hashType 32 }

/-- **C65, what fails: two members of one class.**  `UnionType([StringType(max_length=2), IntType(), StringType(max_length=9)])` has only two
members, the last `StringType` in first place. -/
theorem C65_counterexample_same_class : unionMembers [mStr 2, mInt, mStr 9] = [mStr 9, mInt] := rfl

/-- **C65, what fails: another exception.**  `UnionType([MD5Type(), StringType()])` refuses a short text although `StringType` accepts it,
because the first member's conversion raises `ValidationError`. -/
theorem C65_counterexample_validation_error (app : Val) : (unionType [mMd5, mStr 9]).toNative app (.str "abc") = validErr "hash_length" ∧
    (mStr 9).leaf.toNative app (.str "abc") = .ok (.str "abc") := ⟨rfl, rfl⟩

/-- **Unions are not idempotent:** `'00'` is no boolean, so it becomes the int 0, which is a boolean. -/
theorem C65_not_idempotent (app : Val) : (unionType [mBool, mInt]).toNative app (.str "00") = .ok (.int 0) ∧
    (unionType [mBool, mInt]).toNative app (.int 0) = .ok (.bool false) := ⟨rfl, rfl⟩

/-- **Validators given to the union itself never run** when its members are type objects: whatever options the union field has, validation is
that of the member. -/
theorem C65_own_validators_ignored (rec : Rec) (env : Env) (ctx : Ctx) (ms : List Member) (o o' : FieldOpts) (v : Val) :
    validateF rec env ctx (.mk (.leaf (unionType ms)) o) v = validateF rec env ctx (.mk (.leaf (unionType ms)) o') v := rfl

/-! ## The hypotheses are met -/

example : Coords (.list [.int 45, .flt (.fin (-5) 1)]) (.int 45) (.flt (.fin (-5) 1)) ∧ ¬ IsNan (.int 45) ∧ ¬ IsNan (.flt (.fin (-5) 1)) := by
  refine ⟨Or.inr (Or.inl rfl), ?_, ?_⟩ <;> (intro h; cases h)

example : geoType.toNative .none (.dict [(.str "lat", .int 45), (.str "lon", .int 7)]) = .ok (.dict [(.str "lat", .int 45), (.str "lon", .int 7)]) := rfl

/-- A value with two locales, asked for one it lacks and then one it has. -/
example : Asks (ctxLocale [(.str "locale", .list [.str "fr", .str "de"])]) [.str "fr", .str "de"] ∧ Asks (.str "en") [.str "en"] ∧
    (multiType (.str "en")).toPrimitive (.dict [(.str "locale", .list [.str "fr", .str "de"])])
      (.dict [(.str "en", .str "hello"), (.str "de", .str "hallo")]) = .ok (.str "hallo") :=
  ⟨.list _ (by intro l hl; simp at hl; rcases hl with rfl | rfl <;> exact ⟨_, rfl⟩), .one "en" (by decide), rfl⟩

/-- An enum with an alias. -/
def colour : EnumDef := { cls := "Colour", members := [("RED", .int 1), ("GREEN", .str "g")], aliases := [("ROT", "RED")] }

theorem colour_wf : colour.WF where
  names := by decide
  alias_new := by decide
  distinct := by simp [colour]; decide
  plain := by decide

example (str : Val → String) : (enumType str colour).toNative .none (.str "ROT") = .ok (.enum "Colour" "RED" (.int 1)) :=
  C64_alias str colour colour_wf false .none "ROT" ("RED", .int 1) (by simp [colour]) rfl
example (str : Val → String) : (enumType str colour true).toNative .none (.str "g") = .ok (.enum "Colour" "GREEN" (.str "g")) :=
  (C64_value_roundtrip str colour colour_wf .none .none ("GREEN", .str "g") (by simp [colour])).2.2
    ⟨by intro s h m' hm; cases h; revert hm; simp [EnumDef.byName, colour, Dict.get?], by decide⟩

example : ([mBool, mInt].map Member.cls).Nodup ∧ Refuses mBool .none (.str "7") ∧ mInt.leaf.toNative .none (.str "7") = .ok (.int 7) :=
  ⟨by decide, ⟨_, rfl⟩, rfl⟩

end Verif.Types
