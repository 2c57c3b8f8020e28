import Verif.Model.Mesh
import Mathlib.Logic.Function.Basic

/-!
# Model of saving and reading objects

Source: `root/save.py`, `root/read/main.py`, `root/read/helpers/`, `components/freeze/main.py`,
`components/miscellaneous/checks/check_filename_mi.py`, `objects/CSCG/base/forms/standard/cochain/main.py`,
`objects/CSCG/base/forms/trace/cochain/main.py`, `objects/CSCG/_3d/forms/edge/base/cochain.py`,
`objects/CSCG/_2d/master.py`, `objects/CSCG/_3d/master.py`.
-/

namespace Mifem.Save

open Mifem.Mesh

/-! ## Cochains -/

/-- Dictionaries: the latest entry comes first (`d[k] = v` is `(k, v) :: d`). -/
def get {κ γ : Type} [DecidableEq κ] : List (κ × γ) → κ → Option γ
  | [], _ => none
  | (k, v) :: l, key => if k = key then some v else get l key

/-- `str` of a tuple of indices.  (With numpy 2 the entries are printed as `np.int64(0)`; nothing below depends on how an
entry is printed, but a file cannot be read with another version.) -/
def strTuple : List ℕ → List Char
  | [] => "()".toList
  | [a] => '(' :: Nat.toDigits 10 a ++ ",)".toList
  | a :: l => '(' :: Nat.toDigits 10 a ++ l.flatMap (fun b => ", ".toList ++ Nat.toDigits 10 b) ++ ")".toList

/-- The key of an element: `rn + '=|=' + str(loc_ind)`. -/
def key (names : List (List Char)) (x : ℕ × List ℕ) : List Char :=
  names.getD x.1 [] ++ "=|=".toList ++ strTuple x.2

/-- The keys of the elements in the local cochain of a core (`standard/cochain/main.py` 73–77); `none` when the element is
not found. -/
def coreKeys {γ : Type} (names : List (List Char)) (M : List EArr) : List (ℕ × γ) → Option (List (ℕ × List Char))
  | [] => some []
  | (e, _) :: l => (find M e).bind fun x => (coreKeys names M l).map fun r => (e, key names x) :: r

/-- All cores (l. 79): `COMM.gather`. -/
def allKeys {γ : Type} (names : List (List Char)) (M : List EArr) : List (List (ℕ × γ)) → Option (List (List (ℕ × List Char)))
  | [] => some []
  | c :: cs => (coreKeys names M c).bind fun k => (allKeys names M cs).map fun r => k :: r

/-- `D.update(d)` for the dictionaries of all cores, in order (l. 62–64, 81–83). -/
def merge {κ γ : Type} : List (List (κ × γ)) → List (κ × γ) :=
  fun ds => ds.foldl (fun D d => d ++ D) []

/-- `RW_LOCAL` (l. 86–99): for each element in turn, `RW_LOCAL[RID[i]] = LOCAL[i]`; `none` when an assertion fails. -/
def regionWise {γ : Type} (LOCAL : List (ℕ × γ)) (RID : List (ℕ × List Char)) : ℕ → Option (List (List Char × γ))
  | 0 => some []
  | n + 1 => (regionWise LOCAL RID n).bind fun d => (get LOCAL n).bind fun v => (get RID n).map fun k => (k, v) :: d

/-- `___PRIVATE_do_gather_to_master_and_make_them_region_wise_local_index_grouped___` (standard 67–99, trace 56–90, edge
37–69); `n` is the number of elements of the mesh.  A form without cochain (`local is None`) raises. -/
def gather {γ : Type} (names : List (List Char)) (M : List EArr) (n : ℕ) (cores : Option (List (List (ℕ × γ)))) :
    Option (List (List Char × γ)) :=
  cores.bind fun cores => (allKeys names M cores).bind fun ks => regionWise (merge cores) (merge ks) n

/-- `___PRIVATE_do_distribute_region_wise_local_index_grouped_cochain_to_local___` (standard 101–116, trace 92–107, edge
71–86) in one core; `none` for `KeyError`. -/
def distribute {γ : Type} (names : List (List Char)) (M : List EArr) (RW : List (List Char × γ)) :
    List ℕ → Option (List (ℕ × γ))
  | [] => some []
  | e :: l => (find M e).bind fun x => (get RW (key names x)).bind fun v =>
    (distribute names M RW l).map fun r => (e, v) :: r

/-! ## Files of several objects -/

/-- The objects of a user, at addresses.  Meshes and spaces refer to the dictionary of their parameters themselves; each
form has its own copies of the dictionaries of its mesh and space, made when the form is made (`_3d/master.py` 198–199,
`_2d/master.py` 167–168).  An algebraic dual form is saved with the dictionaries of its prime (`base/ADF/base/main.py` 63), so it
has the address of the prime here. -/
inductive UObj (ι : Type) where
  | mesh (a : ℕ)
  | space (a : ℕ)
  | form (a : ℕ) (info : ι)

/-- References to dictionaries: of an object itself, or the mesh (`false`) and space (`true`) dictionary of a form. -/
abbrev Ptr := ℕ × Bool

/-- What is read: an object with its identity and parameters. -/
structure Obj (P : Type) where
  id : ℕ
  par : P

/-- What `read` returns for one entry. -/
inductive ROb (P ι : Type) where
  | mesh (o : Obj P)
  | space (o : Obj P)
  | form (m s : Obj P) (info : ι)
  | skipped

/-- State of the session: the dictionaries of the file (those that have been emptied by `pop` are `none`), the caches of one
mesh and one space (`read/main.py` 20–24), the next free identity. -/
structure Session (P T : Type) where
  dicts : Ptr → Option P
  mesh : Option (T × Obj P)
  space : Option (T × Obj P)
  next : ℕ

/-- `___restore__*_Mesh___` and `___restore__*_Space___` (`read/helpers/_3dCSCG/mesh.py` 6–41, `space.py` 6–36; `_2dCSCG` the
same): the tag is `str(parameters)`; if it is not that of the cached object, the parameters are popped from the dictionary (an
emptied one raises `KeyError`) and a new object is made. Returns object, cache, dictionaries and next identity. -/
def restore {P T : Type} [DecidableEq T] (tag : P → T) (empty : T) (dicts : Ptr → Option P) (cache : Option (T × Obj P)) (next : ℕ)
    (p : Ptr) : Option (Obj P × Option (T × Obj P) × (Ptr → Option P) × ℕ) :=
  let t := match dicts p with
    | some x => tag x
    | none => empty
  let make := match dicts p with
    | some x => some (⟨next, x⟩, some (t, ⟨next, x⟩), Function.update dicts p none, next + 1)
    | none => none
  match cache with
  | none => make
  | some (t', o) => if t = t' then some (o, cache, dicts, next) else make

/-- One entry of the file (`read/main.py` 77–140; forms: `read/helpers/_3dCSCG/form.py` 33–35: the space first, then the
mesh). -/
def readOne {P T ι : Type} [DecidableEq T] (tag : P → T) (empty : T) (s : Session P T) : UObj ι → Option (Session P T × ROb P ι)
  | .mesh a => (restore tag empty s.dicts s.mesh s.next (a, false)).map fun r =>
      (⟨r.2.2.1, r.2.1, s.space, r.2.2.2⟩, .mesh r.1)
  | .space a => (restore tag empty s.dicts s.space s.next (a, true)).map fun r =>
      (⟨r.2.2.1, s.mesh, r.2.1, r.2.2.2⟩, .space r.1)
  | .form a info => (restore tag empty s.dicts s.space s.next (a, true)).bind fun r =>
      (restore tag empty r.2.2.1 s.mesh r.2.2.2 (a, false)).map fun q =>
        (⟨q.2.2.1, q.2.1, r.2.1, q.2.2.2⟩, .form q.1 r.1 info)

/-- The loop over the entries; `flags` is `read_individuals` (l. 73–144). -/
def readAll {P T ι : Type} [DecidableEq T] (tag : P → T) (empty : T) : Session P T → List (UObj ι × Bool) → Option (Session P T × List (ROb P ι))
  | s, [] => some (s, [])
  | s, (o, true) :: l => (readOne tag empty s o).bind fun r => (readAll tag empty r.1 l).map fun q => (q.1, r.2 :: q.2)
  | s, (_, false) :: l => (readAll tag empty s l).map fun q => (q.1, .skipped :: q.2)

/-- `read` of a file: the dictionaries are loaded (`pickle` keeps references that point to the same dictionary; `par` gives the
contents), `read_individuals` must have the length of the list (l. 56–71). -/
def read {P T ι : Type} [DecidableEq T] (tag : P → T) (empty : T) (s : Session P T) (par : Ptr → P) (objs : List (UObj ι))
    (flags : Option (List Bool)) : Option (Session P T × List (ROb P ι)) :=
  let s := { s with dicts := fun p => some (par p) }
  match flags with
  | none => readAll tag empty s (objs.map fun o => (o, true))
  | some fl => if fl.length = objs.length then readAll tag empty s (objs.zip fl) else none

/-! ## Names of classes -/

/-- IDs of the forms that can be made, with their classes (`_3d/forms/allocator.py` 10–24, `_3d/ADF/allocator.py` 9–16,
`_2d/forms/allocator.py` 10–18). -/
def formClasses : List (String × String) :=
  [("3-f", "_3dCSCG_3Form"), ("2-f", "_3dCSCG_2Form"), ("1-f", "_3dCSCG_1Form"), ("0-f", "_3dCSCG_0Form"),
   ("0-t", "_3dCSCG_0Trace"), ("1-t", "_3dCSCG_1Trace"), ("2-t", "_3dCSCG_2Trace"),
   ("0-e", "_3dCSCG_0Edge"), ("1-e", "_3dCSCG_1Edge"),
   ("0-lt", "_3dCSCG_0LocalTrace"), ("1-lt", "_3dCSCG_1LocalTrace"), ("2-lt", "_3dCSCG_2LocalTrace"),
   ("0-adf", "_3dCSCG_S0_ADF"), ("1-adf", "_3dCSCG_S1_ADF"), ("2-adf", "_3dCSCG_S2_ADF"), ("3-adf", "_3dCSCG_S3_ADF"),
   ("0-adt", "_3dCSCG_T0_ADF"), ("1-adt", "_3dCSCG_T1_ADF"), ("2-adt", "_3dCSCG_T2_ADF"),
   ("0-f-i", "_2dCSCG_0Form_Inner"), ("1-f-i", "_2dCSCG_1Form_Inner"), ("2-f-i", "_2dCSCG_2Form_Inner"),
   ("0-f-o", "_2dCSCG_0Form_Outer"), ("1-f-o", "_2dCSCG_1Form_Outer"), ("2-f-o", "_2dCSCG_2Form_Outer"),
   ("1-t-o", "_2dCSCG_1Trace_Outer")]

/-- Classes of forms that `read` knows (`read/main.py` 93–128). -/
def readable : List String :=
  ["_3dCSCG_0Form", "_3dCSCG_1Form", "_3dCSCG_2Form", "_3dCSCG_3Form", "_3dCSCG_2Trace", "_3dCSCG_1Trace", "_3dCSCG_0Trace",
   "_3dCSCG_0Edge", "_3dCSCG_S0_ADF", "_3dCSCG_S1_ADF", "_3dCSCG_S2_ADF", "_3dCSCG_S3_ADF", "_3dCSCG_T0_ADF", "_3dCSCG_T1_ADF",
   "_3dCSCG_T2_ADF", "_2dCSCG_0Form_Inner", "_2dCSCG_0Form_Outer", "_2dCSCG_1Form_Inner", "_2dCSCG_1Form_Outer",
   "_2dCSCG_2Form_Inner", "_2dCSCG_2Form_Outer", "_2dCSCG_1Trace_Outer"]

/-- Names of an algebraic dual form and its prime (`_3d/master.py` 206–271): made with a name, or from a prime. -/
def dualNames (made : String ⊕ String) : String × String :=
  match made with
  | .inl name => (name, "PRIME_" ++ name)
  | .inr prime => ("AD_" ++ prime, prime)

/-- The names after reading: the prime is restored, and the dual is made from it (`read/helpers/_3dCSCG/ADF.py` 14–40). -/
def dualNamesRead (made : String ⊕ String) : String × String := dualNames (.inr (dualNames made).2)

/-! ## Names of files -/

/-- `filename += '.mi'` unless it is there. -/
def withExt (s : List Char) : List Char := if ".mi".toList.isSuffixOf s then s else s ++ ".mi".toList

/-- Characters that `check_no_splcharacter` does not allow (`check_no_splcharacter.py` 15; the backslash before the bar
only escapes it). -/
def special : List Char := "@!#$%^&*()<>?/|}{~:".toList

/-- `check_filename_mi` (6–18); `none` when an assertion fails. -/
def checkFilename (s : List Char) : Option (List Char) :=
  if s.any (special.contains ·) then none
  else if 64 < s.length then none
  else
    let f := withExt s
    let g := if 1 < f.count '.' then ((f.map fun c => if c = '.' then '_' else c).take (f.length - 3)) ++ ".mi".toList else f
    if g.count '.' = 1 ∧ ".mi".toList.isSuffixOf g ∧ ' ' ∉ g then some g else none

/-- The file that `read` opens (`read/helpers/chain.py` 6–11). -/
def readName (s : List Char) : List Char := withExt s

end Mifem.Save
