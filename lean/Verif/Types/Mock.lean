import Verif.Types.Misc
import Verif.Types.Net
import Verif.Types.DateTime
import Verif.Types.Text
import Verif.Types.Number

/-!
# Mock values: `types/base.py:43-82`, `345-350` and the `_mock` methods

The random generator is a tape `r : Nat → Nat`: the outcome of the `i`-th call of `random` is determined by the arbitrary number `r i`, so that
a statement for every tape is a statement for every random outcome.  `random.uniform(a, b)` is any rational number between the bounds (that it
stays within the bounds is documented by Python; its floating-point arithmetic is not modelled).
-/
namespace Verif.Types.Mock
open Verif.Py Verif.Types

/-- The random outcomes. -/
abbrev Tape := Nat → Nat

/-- `random.randrange(n)` for `n > 0`. -/
def randrange (n : Nat) (x : Nat) : Nat := x % n

/-- `random.randint(lo, hi)` for `lo <= hi`. -/
def randint (lo hi : Int) (x : Nat) : Int := lo + (x : Int) % (hi - lo + 1)

/-- `get_range_endpoints` (`types/base.py:52-70`); `none` is `MockCreationError`. -/
def endpoints (min max : Option Int) (padding required : Int) : Option (Int × Int) :=
  let lo := min.getD 0
  let hi := max.getD (Max.max (lo * 2) 16)
  let hi' := if padding ≠ 0 then hi - padding else hi
  let lo' := if padding ≠ 0 then Max.max (lo - padding) 0 else lo
  if hi' < required then none
  else
    let lo'' := Max.max lo' required
    if hi' < lo'' then none else some (lo'', hi')

/-- `get_value_in` (`types/base.py:73-75`) -/
def valueIn (min max : Option Int) (padding required : Int) (x : Nat) : Option Int :=
  (endpoints min max padding required).map fun p => randint p.1 p.2 x

/-- `string.ascii_letters + string.digits` (`types/base.py:78`) -/
def alphanumeric : List Char := "abcdefghijklmnopqrstuvwxyzABCDEFGHIJKLMNOPQRSTUVWXYZ0123456789".toList

/-- `string.hexdigits` -/
def hexdigits : List Char := "0123456789abcdefABCDEF".toList

/-- `random_string(length, chars)` (`types/base.py:81-82`), reading the tape from position `i` on. -/
def randomString (chars : List Char) (n : Nat) (r : Tape) (i : Nat) : List Char :=
  (List.range n).map fun j => chars.getD (r (i + j) % chars.length) 'a'

/-- A bound of a length as it is passed on. -/
def lift (b : Option Nat) : Option Int := b.map fun n => (n : Int)

/-- `StringType._mock` (`types/base.py:409-410`) -/
def string (max min : Option Nat) (r : Tape) : Option Val :=
  (valueIn (lift min) (lift max) 0 0 (r 0)).map fun n => .str (String.ofList (randomString alphanumeric n.toNat r 1))

/-- `fill_template` (`types/base.py:43-49`) for the template `pre%spost`. -/
def template (pre post : List Char) (max min : Option Nat) (r : Tape) : Option Val :=
  (valueIn (lift min) (lift max) ((pre.length + post.length : Nat) : Int) 1 (r 0)).map fun n =>
    .str (String.ofList (pre ++ randomString alphanumeric n.toNat r 1 ++ post))

/-- `EmailType._mock` (`types/net.py:278-280`) -/
def email (max min : Option Nat) (r : Tape) : Option Val := template [] "@example.com".toList max min r

/-- `URLType._mock` (`types/net.py:194-195`) -/
def url (max min : Option Nat) (r : Tape) : Option Val := template "http://a".toList ".ZZ".toList max min r

/-- `HashType._mock` (`types/base.py:567-568`) -/
def hash (len : Nat) (r : Tape) : Option Val := some (.str (String.ofList (randomString hexdigits len r 0)))

/-- `BooleanType._mock` (`types/base.py:618-619`) -/
def boolean (r : Tape) : Option Val := some (.bool (randrange 2 (r 0) = 0))

/-- `UUIDType._mock` (`types/base.py:369-370`): `uuid4`, any 128 bits (the version bits are not modelled). -/
def uuid (r : Tape) : Option Val := some (.uuid (r 0 % 2 ^ 128))

/-- The truncation of `int(x)`. -/
def truncate (u : Rat) : Int := if 0 ≤ u then u.floor else -((-u).floor)

/-- `NumberType._mock` for `IntType` with integer bounds (`types/base.py:464-468`); `u` is the outcome of `random.uniform`. -/
def int (min max : Option Int) (u : Int × Int → Rat) : Option Val :=
  (endpoints min max 0 0).map fun p => .int (truncate (u p))

/-- `DateType._mock` (`types/base.py:665-670`), from position `i` of the tape. -/
def dateAt (r : Tape) : Date := ⟨randrange 600 (r 0) + 1900, randrange 12 (r 1) + 1, randrange 28 (r 2) + 1⟩

/-- `DateType._mock` (`types/base.py:665-670`) -/
def date (r : Tape) : Option Val := some (.date (dateAt r))

/-- The minutes of a mocked zone offset: `random.choice([0, 30, 45])`. -/
def minuteChoice (x : Nat) : Int := [0, 30, 45].getD (x % 3) 0

/-- `DateTimeType._mock` (`types/base.py:806-824`) -/
def datetimeAt (c : DTCfg) (r : Tape) : DateTime :=
  let dt : DateTime := ⟨dateAt r, randrange 24 (r 3), randrange 60 (r 4), randrange 60 (r 5), randrange 1000000 (r 6), none⟩
  if c.tzd = .reject ∨ c.drop = true ∨ (c.tzd = .allow ∧ randrange 2 (r 7) ≠ 0) then dt
  else if c.convert = true then { dt with tz := some 0 }
  else { dt with tz := some ((-12 + (randrange 27 (r 8) : Int)) * 3600 + minuteChoice (r 9) * 60) }

/-- `DateTimeType._mock` (`types/base.py:806-824`) -/
def datetime (c : DTCfg) (r : Tape) : Option Val := some (.datetime (datetimeAt c r))

/-- `GeoPointType._mock` (`types/base.py:1039-1040`) -/
def geo (r : Tape) : Option Val := some (.tuple [.int (-90 + (randrange 180 (r 0) : Int)), .int (-180 + (randrange 360 (r 1) : Int))])

/-- `MultilingualStringType._mock` (`types/base.py:1121-1122`) -/
def multilingual (max min : Option Nat) (r : Tape) : Option Val := string max min r

/-- `sep.join(parts)` -/
def join (sep : Char) : List (List Char) → List Char
  | [] => []
  | [w] => w
  | w :: ws => w ++ sep :: join sep ws

/-- `'%x' % n` -/
def hexNat (n : Nat) : List Char := if n < 16 then [hexDigit n] else hexNat (n / 16) ++ [hexDigit (n % 16)]
termination_by n

/-- `IPv4Type._mock` (`types/net.py:77-78`) -/
def ipv4 (r : Tape) : Option Val := some (.str (String.ofList (join '.' ((List.range 4).map fun i => natText (randrange 256 (r i))))))

/-- `IPv6Type._mock` (`types/net.py:87-90`) -/
def ipv6 (r : Tape) : Option Val :=
  some (.str (String.ofList ("2001:db8:".toList ++ join ':' ((List.range 6).map fun i => hexNat (randrange (2 ^ 16) (r i))))))

/-- `MACAddressType._mock` (`types/net.py:108-109`); `'%02x'` of a number below 256 has two digits. -/
def mac (r : Tape) : Option Val := some (.str (String.ofList (join ':' ((List.range 6).map fun i => hexText 2 (randrange 256 (r i))))))

/-- The length of a mocked list (`types/compound.py:205-208`). -/
def listLength (max min : Option Nat) (r : Tape) : Option Nat := (valueIn (lift min) (lift max) 0 0 (r 0)).map Int.toNat

/-- `BaseType.mock` (`types/base.py:345-350`): `coin` and `pick` are random, `inner` is the outcome of `_mock`.  Choosing from an empty
sequence raises `IndexError`, here also `none`. -/
def mock (required : Bool) (dflt : Val) (choices : Option (List Val)) (inner : Option Val) (coin pick : Nat) : Option Val :=
  if !required && coin % 2 != 0 then some dflt
  else
    match choices with
    | some cs => cs[pick % cs.length]?
    | none => inner

end Verif.Types.Mock
