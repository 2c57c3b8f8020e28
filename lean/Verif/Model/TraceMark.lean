import Verif.Model.Marks
import Verif.Model.Region
import Verif.Model.TraceRec

/-!
# Marks of trace elements with respect to the metric, and what is read off them

Python sources (below /repo/objects/CSCG/_3d/mesh):
* `trace/elements/element/main.py` lines 131-149 (`spacing`), 181-191 (`type_wrt_metric`)
* `domain/regions/region/types_wrt_metric/{orthogonal,crazy,chaotic,transfinite}.py`
* `trace/elements/element/types_wrt_metric/{orthogonal,chaotic}.py`
* `trace/elements/element/whether.py` lines 16-26, `trace/elements/element/coordinate_transformation/constant.py` lines 60-88
* `_2d/mesh/trace/elements/element/coordinate_transformation/constant.py` lines 20-53

Floats are exact rational numbers, as in Model/Marks.
-/

namespace Mifem.TraceMark
open Mifem.Marks Mifem.Three
open Mifem.EWC (Key)

/-- An entry of a spacing: a number or a pair. -/
inductive Sp
  | pt (x : ℚ)
  | iv (a b : ℚ)

/-- main.py 132-149: `sp` is the spacing of the characteristic element. -/
def teSpacing (sp : Fin 3 → ℚ × ℚ) : Side → Fin 3 → Sp
  | .N => ![.pt (sp 0).1, .iv (sp 1).1 (sp 1).2, .iv (sp 2).1 (sp 2).2]
  | .S => ![.pt (sp 0).2, .iv (sp 1).1 (sp 1).2, .iv (sp 2).1 (sp 2).2]
  | .W => ![.iv (sp 0).1 (sp 0).2, .pt (sp 1).1, .iv (sp 2).1 (sp 2).2]
  | .E => ![.iv (sp 0).1 (sp 0).2, .pt (sp 1).2, .iv (sp 2).1 (sp 2).2]
  | .B => ![.iv (sp 0).1 (sp 0).2, .iv (sp 1).1 (sp 1).2, .pt (sp 2).1]
  | .F => ![.iv (sp 0).1 (sp 0).2, .iv (sp 1).1 (sp 1).2, .pt (sp 2).2]

/-- `s[1] - s[0]`, which raises for a number. -/
def diff : Sp → Option ℚ
  | .pt _ => none
  | .iv a b => some (b - a)

/-- region orthogonal.py 73-84 (crazy.py 50-62): the direction and the two sizes; `none` for an exception. -/
def teSizes (t : Fin 3 → Sp) : Option (Char × ℚ × ℚ) :=
  match t 0, t 1, t 2 with
  | .pt _, s1, s2 => do some ('x', ← diff s1, ← diff s2)
  | s0, .pt _, s2 => do some ('y', ← diff s2, ← diff s0)
  | s0, s1, .pt _ => do some ('z', ← diff s0, ← diff s1)
  | _, _, _ => none

/-- element orthogonal.py 24-29: the mark, after the assertions on the sizes. -/
def orthTe (p : Char) (d1 d2 : ℚ) : Option Key :=
  if 0 < d1 ∧ 0 < d2 then
    some ("Orth.".toList ++ p :: ("d1".toList ++ (fmt 5 (roundTo 6 d1) ++ ("d2".toList ++ fmt 5 (roundTo 6 d2)))))
  else none

/-- The types of regions with respect to the metric; the lengths of an orthogonal or crazy region are `L`. -/
inductive RegionType
  | orthogonal (L : Fin 3 → ℚ)
  | crazy (c : ℚ) (L : Fin 3 → ℚ)
  | chaotic
  | transfinite

/-- A mark: a string, or the id of an object (chaotic.py 17). -/
abbrev Mark := Key ⊕ Nat

/-- region orthogonal.py 65-86, crazy.py 42-67, chaotic.py 39-45, transfinite.py 100-111; `id` is the id of the new
object. -/
def classify (id : Nat) (t : Fin 3 → Sp) : RegionType → Option Mark
  | .orthogonal _ => do let (p, d1, d2) ← teSizes t; (orthTe p d1 d2).map .inl
  | .crazy c _ => do
    let (p, d1, d2) ← teSizes t
    if c = 0 then (orthTe p d1 d2).map .inl else some (.inr id)
  | .chaotic => some (.inr id)
  | .transfinite => none

/-- main.py 182-191. -/
def teMark (id : Nat) (r : RegionType) (sp : Fin 3 → ℚ × ℚ) (s : Side) : Option Mark := classify id (teSpacing sp s) r

/-- whether.py 17-26. -/
def orthogonal : Mark → Bool
  | .inl m => m.take 4 == "Orth".toList
  | .inr _ => false

/-- `str.split(c)`. -/
def split (c : Char) : Key → List Key
  | [] => [[]]
  | x :: l =>
    if x = c then [] :: split c l else
    match split c l with
    | [] => [[x]]
    | w :: r => (x :: w) :: r

/-- The digit a character stands for. -/
def digit (c : Char) : Option Nat := if '0' ≤ c ∧ c ≤ '9' then some (c.toNat - '0'.toNat) else none

/-- The number that a string of digits stands for. -/
def parseNat (l : Key) : Option Nat := l.foldlM (fun n c => (digit c).map (10 * n + ·)) 0

/-- `float` of a string of the form `digits.digits`; other forms, which do not occur here, are refused. -/
def parseDec (l : Key) : Option ℚ :=
  match split '.' l with
  | [a, b] => do
    if a = [] ∨ b = [] then none else
    some (((← parseNat a) : ℚ) + (← parseNat b) / 10 ^ b.length)
  | _ => none

/-- constant.py 68-88: `none` for an exception, `some none` if there is no constant Jacobian. -/
def constJacobian (m : Mark) : Option (Option ℚ) :=
  if orthogonal m then
    match m with
    | .inl t =>
      match (split 'd' t).drop 1 with
      | [f0, f1] => do some (some ((← parseDec (f0.drop 1)) * (← parseDec (f1.drop 1)) / 4))
      | _ => none
    | .inr _ => none
  else some none

/-- `_2d/.../constant.py` 26-53: from the mark of the characteristic element and whether its side is `U` or `D`. -/
def constJacobian2 (m : Mark) (ud : Bool) : Option (Option ℚ) :=
  match m with
  | .inl t =>
    if t.take 4 == "Orth".toList then
      if 'x' ∈ t then
        match split 'y' (t.drop 6) with
        | [x, y] => do some (some ((← parseDec (if ud then y else x)) / 2))
        | _ => none
      else do some (some ((← parseDec (t.drop 5)) / 2))
    else some none
  | .inr _ => some none

/-- A trace element seen from its characteristic element: the bounds of the (orthogonal) region, the spacing of the element
in the region, and its side. -/
structure Te where
  b : Fin 3 → ℚ × ℚ
  sp : Fin 3 → ℚ × ℚ
  s : Side

/-- The lengths of the region, and the sizes of the element in the region. -/
def Te.len (t : Te) (i : Fin 3) : ℚ := (t.b i).2 - (t.b i).1
@[inherit_doc Te.len] def Te.dif (t : Te) (i : Fin 3) : ℚ := (t.sp i).2 - (t.sp i).1

/-- The characteristic element: an orthogonal element of an orthogonal region (Region, Metric). -/
noncomputable def Te.el (t : Te) : Disc.Three.El ℝ where
  map := Metric.Three.elementMap (Region.Three.orthogonal fun i => (((t.b i).1 : ℝ), ((t.b i).2 : ℝ)))
    (fun i => ((t.sp i).1 : ℝ)) (fun i => (t.dif i : ℝ))
  J := fun v => Metric.Three.jacobianMatrix true (Region.Three.orthogonalJ (fun i => (((t.b i).1 : ℝ), ((t.b i).2 : ℝ))) v)
    (fun i => (t.dif i : ℝ))
  orth := true

/-- The mark as a key of a cache: `none` if it is not a string (`isinstance(mark, str)`) or raises. -/
def Te.key (t : Te) : Option Key :=
  match teMark 0 (.orthogonal t.len) t.sp t.s with
  | some (.inl m) => some m
  | _ => none

end Mifem.TraceMark
