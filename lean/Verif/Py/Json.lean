import Verif.Py.Basic

/-! `json.dumps(..., ensure_ascii=False)` of python on strings, integers, lists and dictionaries. -/

namespace Py

/-- The values that are written; dictionaries are in order, with their keys already turned into strings. -/
inductive Json
  | str (s : Str)
  | int (i : Int)
  | arr (l : List Json)
  | obj (l : List (Str × Json))

namespace Json

/-- `repr` of an integer. -/
def intRepr : Int → Str
  | .ofNat n => Nat.toDigits 10 n
  | .negSucc n => '-' :: Nat.toDigits 10 (n + 1)

/-- One hexadecimal digit in lower case. -/
def hexDigit (n : Nat) : Char := Nat.digitChar n

/-- `ESCAPE_DCT` of `json.encoder`; other characters are written as they are. -/
def escape (c : Char) : Str :=
  if c = '\\' then c!"\\\\"
  else if c = '"' then c!"\\\""
  else if c = '\n' then c!"\\n"
  else if c = '\r' then c!"\\r"
  else if c = '\t' then c!"\\t"
  else if c.toNat = 8 then c!"\\b"
  else if c.toNat = 12 then c!"\\f"
  else if c.toNat < 32 then c!"\\u00" ++ [hexDigit (c.toNat / 16), hexDigit (c.toNat % 16)]
  else [c]

/-- `py_encode_basestring` -/
def quote (s : Str) : Str := '"' :: (s.flatMap escape ++ ['"'])

mutual
/-- `json.dumps` with the default separators. -/
def dumps : Json → Str
  | .str s => quote s
  | .int i => intRepr i
  | .arr l => '[' :: (dumpsItems l ++ [']'])
  | .obj l => '{' :: (dumpsMembers l ++ ['}'])

def dumpsItems : List Json → Str
  | [] => []
  | [v] => dumps v
  | v :: w :: l => dumps v ++ c!", " ++ dumpsItems (w :: l)

def dumpsMembers : List (Str × Json) → Str
  | [] => []
  | [(k, v)] => quote k ++ c!": " ++ dumps v
  | (k, v) :: m :: l => quote k ++ c!": " ++ dumps v ++ c!", " ++ dumpsMembers (m :: l)
end

end Json
end Py
