import Verif.Types.Net

/-!
# `EmailType` and `URLType` (`types/net.py:120-284`)

The regular expressions are transcribed literally; blanks of verbose patterns outside classes are dropped and `re.I` is folded into the
classes. Simplifications: `verify_exists=True` (an HTTP request) is not modelled; `str.encode('idna')` is an arbitrary function; the names of
the letters that `re.I` adds to `[A-Z]` are those of Python 3.7 and later.
-/
namespace Verif.Types
open Verif.Py
open Verif.Py.Re (chr opt rep upTo range plus)

/-- `[A-Z]` with `re.I`: the ASCII letters, and the four other characters that Python identifies with one of them when ignoring case: the dotted
and dotless Turkish i, the long s and the Kelvin sign. -/
def isLetterI (c : Char) : Bool :=
  decide (65 ≤ c.toNat ∧ c.toNat ≤ 90) || decide (97 ≤ c.toNat ∧ c.toNat ≤ 122) ||
    c.toNat == 0x130 || c.toNat == 0x131 || c.toNat == 0x17F || c.toNat == 0x212A

/-- `[0-9]` -/
def isDigitC (c : Char) : Bool := decide (48 ≤ c.toNat ∧ c.toNat ≤ 57)

/-- `\s`: what `str.isspace` accepts. -/
def isReSpace (c : Char) : Bool := isSpace c || decide (0x1C ≤ c.toNat ∧ c.toNat ≤ 0x1F)

/-! ## EmailType -/

/-- `atext` (`types/net.py:272`): letters, digits and 20 marks. -/
def isAtext (c : Char) : Bool := isLetterI c || isDigitC c || "-!#$%&'*+/=?^_`{|}~".toList.contains c

/-- `[%(qtext)s\s]` (`types/net.py:269`, `273`): the class is `[!#-[\]-~\s]` - the one backslash left by the string literal escapes the bracket, so that
the class has neither the quote nor the backslash. -/
def isQtext (c : Char) : Bool :=
  c == '!' || decide (35 ≤ c.toNat ∧ c.toNat ≤ 91) || decide (93 ≤ c.toNat ∧ c.toNat ≤ 126) || isLetterI c || isReSpace c

/-- `[%(vchar)s\s]` (`types/net.py:269`, `274`) -/
def isVchar (c : Char) : Bool := decide (33 ≤ c.toNat ∧ c.toNat ≤ 126) || isLetterI c || isReSpace c

/-- `[A-Z0-9-]` -/
def isLdh (c : Char) : Bool := isLetterI c || isDigitC c || c == '-'

/-- A hyphen. -/
def isHyphen (c : Char) : Bool := c == '-'

/-- `[atext]+ (\.[atext]+)*` -/
def dotAtom : Re := .seq (plus (.cls isAtext)) (.star (.seq (chr '.') (plus (.cls isAtext))))

/-- `"( [qtext\s] | \\[vchar\s] )*"` -/
def quotedLocal : Re :=
  .seq (chr '"') (.seq (.star (.alt (.cls isQtext) (.seq (chr '\\') (.cls isVchar)))) (chr '"'))

/-- `((?!-)[A-Z0-9-]{1,63}(?<!-)\.)` -/
def labelDot : Re := .seq (.notAhead isHyphen) (.seq (range 1 63 (.cls isLdh)) (.seq (.notBehind isHyphen) (chr '.')))

/-- What stands between `^` and `$` in `EMAIL_REGEX`. -/
def emailBody : Re :=
  .seq (.alt dotAtom quotedLocal) (.seq (chr '@') (.seq (plus labelDot) (range 2 63 (.cls isLetterI))))

/-- `EmailType.EMAIL_REGEX` (`types/net.py:268-276`) -/
def emailRegex : Re := .seq .bol (.seq emailBody .eol)

/-- `raise StopValidationError(...)` -/
def stopErr {α : Type} (msg : Msg) : R α := .error (.field .stop [msg])

/-- `EmailType.validate_email` (`types/net.py:282-284`) -/
def validateEmail : Validator := fun _ v =>
  match v with
  | .str s => if emailRegex.test s.toList then .ok () else stopErr "email"
  | _ => .error (.other "TypeError")

/-- `EmailType` (`types/net.py:259-284`) -/
def emailType (re : Option (String → Bool) := none) (max min : Option Nat := none) : Leaf where
  toNative _ v := stringNative v
  validators := [validateLength max min, validateRegex re, validateEmail]

/-! ## URLType -/

/-- `GEN_DELIMS`, `SUB_DELIMS`, `UNRESERVED` and `%` (`types/net.py:122-128`) -/
def validChars : List Char := ":/?#[]@!$&'()*+,;=-_.~%".toList

/-- The characters of `UNSAFE_CHAR_STRING` (`types/net.py:130`) inside a class: the literal's one backslash escapes the caret, so that the backslash itself
is not among them. -/
def isUnsafe (c : Char) : Bool :=
  decide (c.toNat ≤ 32) || "<>{}|\"`^".toList.contains c || decide (0x7F ≤ c.toNat ∧ c.toNat ≤ 0x9F)

/-- The class `[_chrcls(allowed)]` (`types/net.py:132-142`): any character that is not unsafe, and no special character outside `allowed`. -/
def chrcls (allowed : List Char) (c : Char) : Bool := !isUnsafe c && !(validChars.contains c && !allowed.contains c)

/-- `PCHAR` (`types/net.py:125`) -/
def pchar : List Char := "!$&'()*+,;=-_.~%:@".toList

/-- `[A-Z0-9.+-]` with `re.I` (`types/net.py:145`) -/
def isSchemeChar (c : Char) : Bool := isLetterI c || isDigitC c || c == '.' || c == '+' || c == '-'
/-- Class of `user` (`types/net.py:146`) -/
def isUserChar (c : Char) : Bool := chrcls "-_.~!$&'()*+,;=%:".toList c
/-- Class of `host6` (`types/net.py:149`) -/
def isHost6Char (c : Char) : Bool := isHex c || c == ':'
/-- Class of `hostn` (`types/net.py:150`) -/
def isHostChar (c : Char) : Bool := chrcls ".-".toList c
/-- Class of `path` (`types/net.py:151`) -/
def isPathChar (c : Char) : Bool := chrcls ('/' :: pchar) c
/-- Class of `query` (`types/net.py:152`) -/
def isQueryChar (c : Char) : Bool := chrcls ("/?[]".toList ++ pchar) c
/-- Class of `frag` (`types/net.py:153`) -/
def isFragChar (c : Char) : Bool := chrcls ("/?".toList ++ pchar) c

/-- `(?P<scheme> [A-Z0-9.+-]+ ) ://` and `( (?P<user> ...) @ )?` (`types/net.py:175-176`) -/
def urlStart : Re :=
  .seq (.grp "scheme" (plus (.cls isSchemeChar))) (.seq (chr ':') (.seq (chr '/') (.seq (chr '/')
    (opt (.seq (.grp "user" (plus (.cls isUserChar))) (chr '@'))))))

/-- `\[ (?P<host6> ... ) ]` (`types/net.py:177`) -/
def urlHost6 : Re := .seq (chr '[') (.seq (.grp "host6" (plus (.cls isHost6Char))) (chr ']'))
/-- `(?P<host4> ... )` (`types/net.py:178`) -/
def urlHost4 : Re := .grp "host4" ipv4
/-- `(?P<hostn> ... )` (`types/net.py:179`) -/
def urlHostN : Re := .grp "hostn" (plus (.cls isHostChar))

/-- Port, path, query and fragment, all optional (`types/net.py:180-183`) -/
def urlTail : Re :=
  .seq (opt (.seq (chr ':') (.grp "port" (range 2 5 (.cls isDigitC)))))
  (.seq (opt (.grp "path" (.seq (chr '/') (.star (.cls isPathChar)))))
  (.seq (opt (.seq (chr '?') (.grp "query" (.star (.cls isQueryChar)))))
        (opt (.seq (chr '#') (.grp "frag" (.star (.cls isFragChar)))))))

/-- `URLType.URL_REGEX` (`types/net.py:174-184`) -/
def urlRegex : Re := .seq .bol (.seq urlStart (.seq (.alt urlHost6 (.alt urlHost4 urlHostN)) (.seq urlTail .eol)))

/-- `TLD_REGEX` between `^` and `$` (`types/net.py:186`) -/
def tldBody : Re :=
  .alt (.seq (rep 2 (.cls isLetterI)) (.star (.cls isLetterI)))
    (.seq (chr' 'x') (.seq (chr' 'n') (.seq (chr '-') (.seq (chr '-')
      (.seq (rep 4 (.cls isAlnumI)) (.star (.cls isAlnumI)))))))
where
  /-- A letter in either case. -/
  chr' (c : Char) : Re := .cls fun d => d == c || d == c.toUpper
  /-- `[a-z0-9]` with `re.I` -/
  isAlnumI (c : Char) : Bool := isLetterI c || isDigitC c

/-- `TLD_REGEX` (`types/net.py:186`) -/
def tldRegex : Re := .seq .bol (.seq tldBody .eol)

/-- `groupdict()[name]`: the text of the group, if it took part in the match. -/
def groupOf (caps : List (String × List Char)) (name : String) : Option (List Char) := Dict.get? caps name

/-- `c.lower()` for the comparison with `http` and `https`: no character outside ASCII has one of their letters as its lower case. -/
def lowerChar (c : Char) : Char := if 65 ≤ c.toNat ∧ c.toNat ≤ 90 then Char.ofNat (c.toNat + 32) else c

/-- `value.split('.')` -/
def splitDots : List Char → List (List Char)
  | [] => [[]]
  | '.' :: r => [] :: splitDots r
  | c :: r =>
    match splitDots r with
    | [] => [[c]]
    | w :: ws => (c :: w) :: ws

/-- Only ASCII characters: `encode('ascii')` succeeds. -/
def isAscii (cs : List Char) : Bool := cs.all fun c => decide (c.toNat < 128)

/-- The host name in ASCII (`types/net.py:213-219`); `none` if the IDNA encoding fails. -/
def asciiHost (idna : List Char → Option (List Char)) (h : List Char) : Option (List Char) := if isAscii h then some h else idna h

/-- Drop one final dot (`types/net.py:221-222`). -/
def dropDot (h : List Char) : List Char := if h.getLast? = some '.' then h.dropLast else h

/-- One label (`types/net.py:227-231`). -/
def labelOk (l : List Char) : Bool :=
  decide (0 < l.length ∧ l.length < 64) && l.head? != some '-' && l.getLast? != some '-'

/-- The checks of a host name in ASCII (`types/net.py:221-235`). -/
def hostnameOk (fqdn : Bool) (host : List Char) : Bool :=
  let hostname := dropDot host
  let labels := splitDots hostname
  decide (hostname.length ≤ 253) && labels.all labelOk &&
    (!fqdn || (labels.length != 1 && tldRegex.test (labels.getLast?.getD [])))

/-- A host name (`types/net.py:213-235`): `hostname[-1]` of an empty text raises `IndexError`. -/
def hostnCheck (idna : List Char → Option (List Char)) (fqdn : Bool) (h : List Char) : R Bool :=
  match asciiHost idna h with
  | none => .ok false
  | some [] => .error (.other "IndexError")
  | some a => .ok (hostnameOk fqdn a)

/-- What follows the match in `valid_url` (`types/net.py:203-239`). -/
def urlCheck (idna : List Char → Option (List Char)) (fqdn : Bool) (caps : List (String × List Char)) : R Bool :=
  let scheme := ((groupOf caps "scheme").getD []).map lowerChar
  if scheme = "http".toList ∨ scheme = "https".toList then
    match groupOf caps "host6" with
    | some h => .ok (ipv6Regex.test h)
    | none =>
      match groupOf caps "host4" with
      | some _ => .ok true
      | none => hostnCheck idna fqdn ((groupOf caps "hostn").getD [])
  else .ok false

/-- `URLType.valid_url` (`types/net.py:197-239`): whether the result is true. -/
def validUrl (idna : List Char → Option (List Char)) (fqdn : Bool) (s : List Char) : R Bool :=
  match (urlRegex.run (St.start s)).head? with
  | none => .ok false
  | some y => urlCheck idna fqdn y.caps

/-- `URLType.validate_` with `verify_exists=False` (`types/net.py:241-244`) -/
def validateUrl (idna : List Char → Option (List Char)) (fqdn : Bool) : Validator := fun _ v =>
  match v with
  | .str s =>
    match validUrl idna fqdn s.toList with
    | .ok true => .ok ()
    | .ok false => stopErr "invalid_url"
    | .error e => .error e
  | _ => .error (.other "TypeError")

/-- `URLType(fqdn)` (`types/net.py:157-256`) -/
def urlType (idna : List Char → Option (List Char)) (fqdn : Bool := true) (re : Option (String → Bool) := none) (max min : Option Nat := none) : Leaf where
  toNative _ v := stringNative v
  validators := [validateLength max min, validateRegex re, validateUrl idna fqdn]

end Verif.Types
