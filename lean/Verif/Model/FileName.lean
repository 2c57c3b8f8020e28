/-!
# Names of files

Python source: `/repo/components/miscellaneous/checks/check_filename.py` lines 6-63 (`check_filename`) and
`/repo/components/miscellaneous/checks/check_no_splcharacter.py` lines 7-19.

A string is a list of characters; `none` is an exception.
-/

namespace Mifem.FileName

/-- `check_no_splcharacter.py` 15 (the backslash before the bar only escapes it). -/
def special : List Char := "@!#$%^&*()<>?/|}{~:".toList

/-- 38. -/
def digits : List Char := "0123456789".toList

/-- 51. -/
def letters : List Char := "qwertyuiopasdfghjklzxcvbnmQWERTYUIOPASDFGHJKLZXCVBNM0123456789".toList

/-- `filename.split('.')`. -/
def split : List Char → List (List Char)
  | [] => [[]]
  | c :: l =>
    if c = '.' then [] :: split l
    else
      match split l with
      | h :: t => (c :: h) :: t
      | [] => [[c]]

/-- `'_'.join(...)`. -/
def join : List (List Char) → List Char
  | [] => []
  | [a] => a
  | a :: b :: l => a ++ '_' :: join (b :: l)

/-- 21-26. -/
def normal (s : List Char) : List Char :=
  if 1 < s.count '.' then join (split s).dropLast ++ '.' :: ((split s).getLast?.getD []) else s

/-- 28-36. -/
def parts (s : List Char) : Option (List Char × Option (List Char)) :=
  if s.count '.' = 0 then some (s, none)
  else
    match split s with
    | [a, b] => some (a, some b)
    | _ => none

/-- 39-48: the extension is refused. -/
def allDigits : Option (List Char) → Bool
  | some x => x.all (digits.contains ·)
  | none => false

/-- 6-63. -/
def checkName (s : List Char) : Option (List Char × Option (List Char)) :=
  if s.any (special.contains ·) then none
  else if 64 < s.length then none
  else
    match parts (normal s) with
    | none => none
    | some (n, e) =>
      if allDigits e then none
      else if ! n.any (letters.contains ·) then none
      else if n.head?.any (digits.contains ·) then none
      else if n.contains ' ' then none
      else some (n, e)

end Mifem.FileName
