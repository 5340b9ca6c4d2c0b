/-!
# Names of resources (`fluvio-sc-schema/src/shared.rs`)
-/

namespace Verif.Sc

/-- `MAX_RESOURCE_NAME_LEN` — shared.rs:5 -/
def maxNameLen : Nat := 63

inductive NameResult where
  | ok
  | lengthExceeded
  | invalidCharacter
deriving DecidableEq

/-- `char::is_ascii_lowercase` -/
def isAsciiLowercase (c : Char) : Bool := 'a' ≤ c && c ≤ 'z'
/-- `char::is_ascii_digit` -/
def isAsciiDigit (c : Char) : Bool := '0' ≤ c && c ≤ '9'

/-- `str::len`: the number of bytes of the UTF-8 encoding -/
def byteLen (name : List Char) : Nat := (name.map Char.utf8Size).sum

/-- `validate_resource_name` — shared.rs:27-42; a `str` is the list of its characters. -/
def validateResourceName (name : List Char) : NameResult :=
  if byteLen name > maxNameLen then .lengthExceeded
  else if name.all (fun ch => isAsciiLowercase ch || isAsciiDigit ch || ch == '-')
      && !(name.getLast? == some '-') && !(name.head? == some '-') then .ok
  else .invalidCharacter

end Verif.Sc
