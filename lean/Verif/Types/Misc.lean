import Verif.Py.Regex
import Verif.Types.Number
import Verif.Types.Text
import Verif.Core.Import

/-!
# `GeoPointType`, `MultilingualStringType`, `EnumType`, `UnionType`
(`types/base.py:1026-1198`, `contrib/enum_type.py`, `types/union.py`)
-/
namespace Verif.Types
open Verif.Py
open Verif.Py.Re (chr opt rep)

/-! ## GeoPointType -/

/-- `isinstance(v, (float, int))` -/
def isFloatOrInt : Val → Bool
  | .flt _ => true
  | .int _ => true
  | .bool _ => true
  | _ => false

/-- `isinstance(value, (tuple, list, dict))` and `_normalize` (`types/base.py:1042-1053`): the coordinates in order; those of a dict
are its values, whatever the keys. -/
def geoElements : Val → Option (List Val)
  | .tuple xs => some xs
  | .list xs => some xs
  | .dict kvs => some (kvs.map Prod.snd)
  | _ => none

/-- `GeoPointType.to_native` (`types/base.py:1050-1060`) -/
def geoNative (v : Val) : R Val :=
  match geoElements v with
  | none => convErr "geo_type"
  | some xs =>
    if xs.length ≠ 2 then convErr "geo_dim"
    else if !xs.all isFloatOrInt then convErr "geo_num"
    else .ok v

/-- One test of `validate_range`: raise if the comparison holds. -/
def geoTest (msg : Msg) (r : R Bool) (next : R Unit) : R Unit :=
  match r with
  | .error e => .error e
  | .ok true => validErr msg
  | .ok false => next

/-- `GeoPointType.validate_range` (`types/base.py:1062-1079`) -/
def validateGeo : Validator := fun _ v =>
  match geoElements v with
  | some [lat, lon] =>
    geoTest "point_min" (pyLt lat (.int (-90))) <|
    geoTest "point_max" (pyLt (.int 90) lat) <|
    geoTest "point_min" (pyLt lon (.int (-180))) <|
    geoTest "point_max" (pyLt (.int 180) lon) <| .ok ()
  | _ => .error (.other "TypeError")

/-- `GeoPointType` -/
def geoType : Leaf where
  toNative _ v := geoNative v
  validators := [validateGeo]

/-! ## MultilingualStringType -/

/-- The dictionary key equal to a value, if a key of the model can be equal to it (keys are `str` or `int`; a bool equals an int). -/
def keyOfVal : Val → Option Key
  | .str s => some (.str s)
  | .int i => some (.int i)
  | .bool b => some (.int (if b then 1 else 0))
  | _ => none

/-- Values that cannot be looked up in a dict (`unhashable type`). -/
def unhashable : Val → Bool
  | .list _ => true
  | .dict _ => true
  | .inst _ _ => true
  | _ => false

/-- `possible_locales.append(locale)` for a text, `.extend(locale)` otherwise (`types/base.py:1146-1155`); nothing for a falsy one.
`none`: the value is not iterable (`TypeError`). -/
def localesOf (v : Val) : Option (List Val) :=
  if !v.truthy then some []
  else
    match v with
    | .str s => some [.str s]
    | .list xs => some xs
    | .tuple xs => some xs
    | .bytes bs => some (bs.map fun b => .int b)
    | .dict kvs => some (kvs.map fun kv => match kv.1 with | .str s => .str s | .int i => .int i)
    | _ => none

/-- `context.app_data['locale']` if present (`types/base.py:1142-1144`); `app_data` is a dict. -/
def contextLocale : Val → Val
  | .dict kvs => (Dict.get? kvs (.str "locale")).getD .none
  | _ => .none

/-- `for locale in possible_locales: if locale in value` (`types/base.py:1160-1165`) -/
def findLocale (d : List (Key × Val)) : List Val → R Val
  | [] => convErr "locale_not_found"
  | l :: ls =>
    if unhashable l then .error (.other "TypeError")
    else
      match keyOfVal l with
      | some k =>
        match Dict.get? d k with
        | some x => .ok x
        | none => findLocale d ls
      | none => findLocale d ls

/-- The cast of the localized value to text (`types/base.py:1167-1174`).  Bytes that are not UTF-8 raise `UnicodeDecodeError`. -/
def localizedText : Val → R Val
  | .str s => .ok (.str s)
  | .bytes bs =>
    match utf8Decode bs.length bs with
    | some cs => .ok (.str (String.ofList cs))
    | none => .error (.other "UnicodeDecodeError")
  | .int i => .ok (.str (String.ofList (intText i)))
  | .bool b => .ok (.str (if b then "True" else "False"))
  | _ => convErr "convert"

/-- `MultilingualStringType.to_native` (`types/base.py:1124-1130`) -/
def multiNative (v : Val) : R Val :=
  match v with
  | .none => .ok v
  | .dict _ => .ok v
  | _ => convErr "multilingual"

/-- `MultilingualStringType.to_primitive` (`types/base.py:1132-1175`); values other than dicts never get here after conversion. -/
def multiPrimitive (dflt : Val) (app v : Val) : R Val :=
  match v with
  | .none => .ok .none
  | .dict d =>
    match localesOf (contextLocale app), localesOf dflt with
    | some as, some bs =>
      if (as ++ bs).isEmpty then convErr "no_locale"
      else
        match findLocale d (as ++ bs) with
        | .error e => .error e
        | .ok x => localizedText x
    | _, _ => .error (.other "TypeError")
  | _ => .error (.other "TypeError")

/-- `len(localized) if localized else 0`; `none` is `TypeError`. -/
def localizedLen (v : Val) : Option Nat :=
  if !v.truthy then some 0
  else
    match v with
    | .str s => some s.length
    | .bytes bs => some bs.length
    | .list xs => some xs.length
    | .tuple xs => some xs.length
    | .dict kvs => some kvs.length
    | .inst _ d => some d.length
    | _ => none

/-- The loop of `validate_length` (`types/base.py:1177-1185`) -/
def multiLengthLoop (max min : Option Nat) : List (Key × Val) → R Unit
  | [] => .ok ()
  | (_, x) :: r =>
    match localizedLen x with
    | none => .error (.other "TypeError")
    | some n =>
      if tooLong max n then validErr "max_length"
      else if tooShort min n then validErr "min_length"
      else multiLengthLoop max min r

/-- `MultilingualStringType.validate_length` -/
def multiLength (max min : Option Nat) : Validator := fun _ v =>
  match v with
  | .dict d => multiLengthLoop max min d
  | _ => .error (.other "AttributeError")

/-- One pattern test of `validate_regex`; patterns only apply to texts. -/
def multiTest (msg : Msg) (re : Option (String → Bool)) (v : Val) (next : R Unit) : R Unit :=
  match re, v with
  | none, _ => next
  | some f, .str s => if f s then next else validErr msg
  | some _, _ => .error (.other "TypeError")

/-- A key as a value. -/
def keyVal : Key → Val
  | .str s => .str s
  | .int i => .int i

/-- The loop of `validate_regex` (`types/base.py:1187-1198`) -/
def multiRegexLoop (re locRe : Option (String → Bool)) : List (Key × Val) → R Unit
  | [] => .ok ()
  | (k, x) :: r => multiTest "regex_localized" re x <| multiTest "regex_locale" locRe (keyVal k) <| multiRegexLoop re locRe r

/-- `MultilingualStringType.validate_regex` -/
def multiRegex (re locRe : Option (String → Bool)) : Validator := fun _ v =>
  match re, locRe, v with
  | none, none, _ => .ok ()
  | _, _, .dict d => multiRegexLoop re locRe d
  | _, _, _ => .error (.other "AttributeError")

/-- A character range `[a-b]`. -/
def charRange (a b : Char) : Re := .cls fun c => decide (a.toNat ≤ c.toNat ∧ c.toNat ≤ b.toNat)

/-- `LOCALE_REGEX = ^[a-z]{2}(:?_[A-Z]{2})?$` (`types/base.py:1109`); the group starts with an optional colon. -/
def localeRegex : Re :=
  .seq .bol (.seq (.seq (rep 2 (charRange 'a' 'z')) (opt (.seq (opt (chr ':')) (.seq (chr '_') (rep 2 (charRange 'A' 'Z')))))) .eol)

/-- `MultilingualStringType(regex, max_length, min_length, default_locale, locale_regex)` (`types/base.py:1082-1198`) -/
def multiType (dflt : Val := .none) (re : Option (String → Bool) := none) (max min : Option Nat := none)
    (locRe : Option (String → Bool) := some fun s => localeRegex.test s.toList) : Leaf where
  toNative _ v := multiNative v
  toPrimitive app v := multiPrimitive dflt app v
  validators := [multiLength max min, multiRegex re locRe]

/-! ## EnumType -/

/-- An `enum.Enum` class: its members in definition order, and the additional names of members (aliases).  Mixed-in types (`IntEnum`,
`class E(str, Enum)`) are not modelled. -/
structure EnumDef where
  cls : String
  members : List (String × Val)
  aliases : List (String × String) := []

/-- The member object. -/
def EnumDef.obj (E : EnumDef) (m : String × Val) : Val := .enum E.cls m.1 m.2

/-- `E[name]` -/
def EnumDef.byName (E : EnumDef) (n : String) : Option (String × Val) :=
  E.members.find? fun m => m.1 == (Dict.get? E.aliases n).getD n

/-- `_find_by_value` (`contrib/enum_type.py:65-70`) -/
def EnumDef.byValue (E : EnumDef) (v : Val) : Option (String × Val) := E.members.find? fun m => Val.pyEq m.2 v

/-- `_find_by_name` (`contrib/enum_type.py:58-63`) -/
def EnumDef.findByName (E : EnumDef) : Val → Option (String × Val)
  | .str s => E.byName s
  | _ => none

/-- `isinstance(value, self._enum_class)` -/
def EnumDef.has (E : EnumDef) : Val → Bool
  | .enum c _ _ => c == E.cls
  | _ => false

/-- `EnumType.to_native` (`contrib/enum_type.py:46-56`) -/
def enumNative (E : EnumDef) (useValues : Bool) (v : Val) : R Val :=
  if E.has v then .ok v
  else
    match E.findByName v with
    | some m => .ok (E.obj m)
    | none =>
      match (if useValues then E.byValue v else none) with
      | some m => .ok (E.obj m)
      | none => convErr "convert"

/-- `EnumType.to_primitive` (`contrib/enum_type.py:72-79`) -/
def enumPrimitive (str : Val → String) (useValues : Bool) : Val → R Val
  | .enum _ n x => .ok (if useValues then x else .str n)
  | v => .ok (.str (str v))

/-- `EnumType(enum, use_values)` -/
def enumType (str : Val → String) (E : EnumDef) (useValues : Bool := false) : Leaf where
  toNative _ v := enumNative E useValues v
  toPrimitive _ v := enumPrimitive str useValues v

/-! ## UnionType -/

/-- A member of a union: a scalar type object and its class (compound members are not modelled). -/
structure Member where
  cls : String
  leaf : Leaf
  o : FieldOpts := {}

/-- `self._types[type_.__class__] = type_` for each given type (`types/union.py:50-57`): a later member of the same class replaces the
earlier one, at its place. -/
def unionMembers (ms : List Member) : List Member := (ms.foldl (fun (d : Dict String Member) m => d.set m.cls m) []).map Prod.snd

/-- `UnionType.resolve` (`types/union.py:60-68`): the first member whose conversion does not raise `ConversionError`. -/
def unionFirst (app v : Val) : List Member → R (Option (Member × Val))
  | [] => .ok none
  | m :: ms =>
    match m.leaf.toNative app v with
    | .ok w => .ok (some (m, w))
    | .error (.field .conv _) => unionFirst app v ms
    | .error e => .error e

/-- `UnionType._resolve` (`types/union.py:70-80`) with an optional `resolver` that names a member class. -/
def unionResolve (resolver : Option (Val → Option String)) (ms : List Member) (app v : Val) : R (Member × Val) :=
  match resolver with
  | none =>
    match unionFirst app v ms with
    | .error e => .error e
    | .ok (some r) => .ok r
    | .ok none => convErr "convert"
  | some f =>
    match f v with
    | none => convErr "convert"
    | some c =>
      match ms.find? fun m => m.cls == c with
      | none => .error (.other "KeyError")
      | some m =>
        match m.leaf.toNative app v with
        | .ok w => .ok (m, w)
        | .error (.field .conv _) => convErr "convert"
        | .error e => .error e

/-- `BaseType.validate` of a member (`types/base.py:307-333`). -/
def memberValidate (m : Member) (convert : Bool) (app v : Val) : R Val :=
  match m.leaf.override with
  | some g => g convert app v
  | none =>
    if convert then
      match m.leaf.toNative app v with
      | .error e => .error e
      | .ok w => finishValidation app w (Field.mk (.leaf m.leaf) m.o).allValidators
    else finishValidation app v (Field.mk (.leaf m.leaf) m.o).allValidators

/-- `UnionType.convert`, `to_native` (`types/union.py:82-85`, `95-97`): the member's conversion is a function of the value. -/
def unionNative (r : R (Member × Val)) : R Val :=
  match r with
  | .error e => .error e
  | .ok (_, w) => .ok w

/-- `UnionType.to_primitive` (`types/union.py:99-101`) -/
def unionPrimitive (app v : Val) (r : R (Member × Val)) : R Val :=
  match r with
  | .error e => .error e
  | .ok (m, _) => m.leaf.toPrimitive app v

/-- `UnionType.validate` (`types/union.py:87-89`) -/
def unionValidate (convert : Bool) (app v : Val) (r : R (Member × Val)) : R Val :=
  match r with
  | .error e => .error e
  | .ok (m, _) => memberValidate m convert app v

/-- `UnionType(types, resolver)` (`types/union.py:36-101`): the members' own methods do the work; the union's `validate` is overridden. -/
def unionType (given : List Member) (resolver : Option (Val → Option String) := none) : Leaf where
  toNative app v := unionNative (unionResolve resolver (unionMembers given) app v)
  toPrimitive app v := unionPrimitive app v (unionResolve resolver (unionMembers given) app v)
  override := some fun convert app v => unionValidate convert app v (unionResolve resolver (unionMembers given) app v)

end Verif.Types
