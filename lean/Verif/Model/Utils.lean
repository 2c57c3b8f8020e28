import Mathlib.Algebra.Order.Group.Defs
import Mathlib.Data.Rat.Floor
import Mathlib.Data.Nat.Digits.Defs

/-!
# Small utilities

Model of `/repo/components/collections/take_closest.py` (l.9-25), `/repo/components/miscellaneous/break_list.py` (l.3-20)
and of the duration converters in `/repo/components/miscellaneous/timer.py` (l.48-113).
-/

namespace Mifem.Utils

section Closest
variable {α : Type} [AddCommGroup α] [LinearOrder α]

/-- `bisect.bisect_left` of the Python library (used in take_closest.py l.15): binary search between `lo` and `hi`. -/
def bisect (a : List α) (x : α) (lo hi : Nat) : Nat :=
  if h : lo < hi then
    let mid := (lo + hi) / 2
    match a[mid]? with
    | some y => if y < x then bisect a x (mid + 1) hi else bisect a x lo mid
    | none => lo
  else lo
termination_by hi - lo
decreasing_by all_goals omega

/-- `take_closest` (l.9-25); `none` is `IndexError`. -/
def takeClosest (a : List α) (x : α) : Option α :=
  let pos := bisect a x 0 a.length
  if pos = 0 then a[0]?
  else if pos = a.length then a.getLast?
  else do
    let before ← a[pos - 1]?
    let after ← a[pos]?
    if after - x < x - before then some after else some before

end Closest

/-- `break_list_into_parts` (l.3-20) with the loop variable `start`; the slice `LIST[start:start+p]`. Sizes are natural numbers. -/
def breakList {α : Type} (l : List α) : Nat → List Nat → List (List α)
  | _, [] => []
  | start, p :: ps => ((l.take (start + p)).drop start) :: breakList l (start + p) ps

/-! ## Durations

Simplification: seconds are exact rational numbers, where the code has floats; texts are lists of characters. -/

/-- `int(x)` of a number: towards zero. -/
def trunc (q : ℚ) : ℤ := if 0 ≤ q then ⌊q⌋ else ⌈q⌉

/-- `divmod(x, 60)`: quotient rounded down, and remainder. -/
def divmod (x : ℚ) (k : ℤ) : ℤ × ℚ := (⌊x / k⌋, x - k * ⌊x / k⌋)

def digit (d : Nat) : Char := Char.ofNat (48 + d)

/-- decimal digits of a natural number, as `str` writes them. -/
def dec (n : Nat) : List Char := if n = 0 then ['0'] else ((Nat.digits 10 n).reverse.map digit)

/-- `'%0wd' % z`: zeros are put after the sign. `str(z)` is the case `w = 0`. -/
def fmt (w : Nat) (z : ℤ) : List Char :=
  if z < 0 then
    let s := dec z.natAbs
    '-' :: (List.replicate (w - 1 - s.length) '0' ++ s)
  else
    let s := dec z.natAbs
    List.replicate (w - s.length) '0' ++ s

/-- `seconds2hms` (l.48-53). `%d` of a float truncates. -/
def seconds2hms (s : ℚ) : List Char :=
  let a := divmod s 60
  let b := divmod a.1 60
  ['['] ++ fmt 2 b.1 ++ [':'] ++ fmt 2 (trunc b.2) ++ [':'] ++ fmt 2 (trunc a.2) ++ [']']

/-- `seconds2dhms` (l.63-70). -/
def seconds2dhms (s : ℚ) : List Char :=
  let days := trunc (s / 86400)
  let S := s - 86400 * days
  let a := divmod S 60
  let b := divmod a.1 60
  ['['] ++ fmt 0 days ++ [':'] ++ fmt 2 b.1 ++ [':'] ++ fmt 2 (trunc b.2) ++ [':'] ++ fmt 2 (trunc a.2) ++ [']']

/-- `seconds2dhmsm` (l.72-80). -/
def seconds2dhmsm (s : ℚ) : List Char :=
  let ms := (s - trunc s) * 1000
  let days := trunc (s / 86400)
  let S := s - 86400 * days
  let a := divmod S 60
  let b := divmod a.1 60
  ['['] ++ fmt 0 days ++ [':'] ++ fmt 2 b.1 ++ [':'] ++ fmt 2 (trunc b.2) ++ [':'] ++ fmt 2 (trunc a.2) ++ ['.'] ++ fmt 3 (trunc ms) ++ [']']

/-- `text.split(c)`. -/
def split (c : Char) : List Char → List (List Char)
  | [] => [[]]
  | x :: xs => if x = c then [] :: split c xs else
    match split c xs with
    | [] => [[x]]
    | w :: ws => (x :: w) :: ws

/-- `int(text)` of digits. Simplification: no blanks, underscores or plus sign, which `int` accepts too. -/
def parseNat (cs : List Char) : Option Nat :=
  if cs ≠ [] ∧ ∀ c ∈ cs, c.isDigit = true then some (cs.foldl (fun a c => 10 * a + (c.toNat - 48)) 0) else none

/-- `int(text)`; `none` is `ValueError`. -/
def parseInt : List Char → Option ℤ
  | '-' :: cs => (parseNat cs).map fun n : Nat => -(n : ℤ)
  | cs => (parseNat cs).map fun n : Nat => (n : ℤ)

/-- `hms2seconds` (l.82-89). -/
def hms2seconds (t : List Char) : Option ℤ :=
  match split ':' (t.drop 1).dropLast with
  | [hh, mm, ss] => do
    let h ← parseInt hh
    let m ← parseInt mm
    let s ← parseInt ss
    return h * 3600 + m * 60 + s
  | _ => none

/-- `dhms2seconds` (l.91-99). -/
def dhms2seconds (t : List Char) : Option ℤ :=
  match split ':' (t.drop 1).dropLast with
  | [dd, hh, mm, ss] => do
    let d ← parseInt dd
    let h ← parseInt hh
    let m ← parseInt mm
    let s ← parseInt ss
    return d * 86400 + h * 3600 + m * 60 + s
  | _ => none

/-- `dhmsm2seconds` (l.101-111). -/
def dhmsm2seconds (t : List Char) : Option ℚ :=
  match split '.' t with
  | [hms, ms] =>
    match split ':' (hms.drop 1) with
    | [dd, hh, mm, ss] => do
      let k ← parseInt ms.dropLast
      let d ← parseInt dd
      let h ← parseInt hh
      let m ← parseInt mm
      let s ← parseInt ss
      return ((d * 86400 + h * 3600 + m * 60 + s : ℤ) : ℚ) + (k : ℚ) / 1000
    | _ => none
  | _ => none

end Mifem.Utils
