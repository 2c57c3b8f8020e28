/-!
# Local numbering, numbers of basis functions and incidence matrices of one element

Python sources:
* `/repo/objects/CSCG/_2d/spaces/base/num_basis.py` lines 15-67
* `/repo/objects/CSCG/_2d/spaces/base/local_numbering.py` lines 18-56
* `/repo/objects/CSCG/_2d/spaces/base/incidence_matrix.py` lines 25-102
* `/repo/objects/CSCG/_3d/spaces/base/num_basis.py` lines 140-176
* `/repo/objects/CSCG/_3d/spaces/base/local_numbering.py` lines 381-412
* `/repo/objects/CSCG/_3d/spaces/base/incidence_matrix.py` lines 29-117

An integer numpy matrix `E = np.zeros(...)` that is filled by statements `E[r, c] = v` is modelled by
the list of writes in program order; reading an entry gives the value of the last write to it, or 0.
-/

namespace Mifem

/-- One statement `E[r, c] = v`. -/
structure Write where
  r : Nat
  c : Nat
  v : Int
deriving DecidableEq, Repr

/-- State of the numpy matrix after executing the writes in order (`np.zeros` at the start). -/
def matOf (ws : List Write) : Nat → Nat → Int :=
  ws.foldl (fun M w => fun r c => if r = w.r ∧ c = w.c then w.v else M r c) (fun _ _ => 0)

/-- `np.arange(n).reshape(a, b, order='F')[i, j]`: the first index runs fastest. -/
def fIdx2 (a i j : Nat) : Nat := i + a * j

/-- `np.arange(n).reshape(a, b, c, order='F')[i, j, k]`. -/
def fIdx3 (a b i j k : Nat) : Nat := i + a * (j + b * k)

/-! ## 2D -/
namespace Two

/-- num_basis.py 15-22 and 42-49 (inner and outer 0-forms): `(p0+1)*(p1+1)`. -/
def nb0 (p0 p1 : Nat) : Nat := (p0 + 1) * (p1 + 1)

/-- num_basis.py 24-33: components of the inner 1-form, `p0*(p1+1)` and `(p0+1)*p1`. -/
def nbI1c0 (p0 p1 : Nat) : Nat := p0 * (p1 + 1)
/-- second component of the inner 1-form. -/
def nbI1c1 (p0 p1 : Nat) : Nat := (p0 + 1) * p1
/-- `_basis_ = np.sum(_basis_components_)`. -/
def nbI1 (p0 p1 : Nat) : Nat := nbI1c0 p0 p1 + nbI1c1 p0 p1

/-- num_basis.py 51-60: components of the outer 1-form, `(p0+1)*p1` and `p0*(p1+1)`. -/
def nbO1c0 (p0 p1 : Nat) : Nat := (p0 + 1) * p1
/-- second component of the outer 1-form. -/
def nbO1c1 (p0 p1 : Nat) : Nat := p0 * (p1 + 1)
/-- `_basis_ = np.sum(_basis_components_)`. -/
def nbO1 (p0 p1 : Nat) : Nat := nbO1c0 p0 p1 + nbO1c1 p0 p1

/-- num_basis.py 35-40, 62-67: `p0*p1`. -/
def nb2 (p0 p1 : Nat) : Nat := p0 * p1

/-- local_numbering.py 18-22 / 38-42: array of shape `(p0+1, p1+1)`. -/
def ln0 (p0 _p1 i j : Nat) : Nat := fIdx2 (p0 + 1) i j

/-- local_numbering.py 24-32, component 0 of the inner 1-form: shape `(p0, p1+1)`, offset 0. -/
def lnI1c0 (p0 _p1 i j : Nat) : Nat := fIdx2 p0 i j
/-- component 1 of the inner 1-form: shape `(p0+1, p1)`, offset `components[0]`. -/
def lnI1c1 (p0 p1 i j : Nat) : Nat := fIdx2 (p0 + 1) i j + nbI1c0 p0 p1

/-- local_numbering.py 44-52, component 0 of the outer 1-form: shape `(p0+1, p1)`. -/
def lnO1c0 (p0 _p1 i j : Nat) : Nat := fIdx2 (p0 + 1) i j
/-- component 1 of the outer 1-form: shape `(p0, p1+1)`, offset `components[0]`. -/
def lnO1c1 (p0 p1 i j : Nat) : Nat := fIdx2 p0 i j + nbO1c0 p0 p1

/-- local_numbering.py 34-36 / 54-56: shape `(p0, p1)`. -/
def ln2 (p0 _p1 i j : Nat) : Nat := fIdx2 p0 i j

/-- `for j in range(J): for i in range(I): body i j`. -/
def loop2 (I J : Nat) (body : Nat → Nat → List Write) : List Write :=
  (List.range J).flatMap fun j => (List.range I).flatMap fun i => body i j

/-- incidence_matrix.py 25-46 (`_2dCSCG_0Form_Inner`, grad). -/
def gradInnerW (p0 p1 : Nat) : List Write :=
  loop2 p0 (p1 + 1) (fun i j =>
    [⟨lnI1c0 p0 p1 i j, ln0 p0 p1 i j, -1⟩, ⟨lnI1c0 p0 p1 i j, ln0 p0 p1 (i+1) j, 1⟩]) ++
  loop2 (p0 + 1) p1 (fun i j =>
    [⟨lnI1c1 p0 p1 i j, ln0 p0 p1 i j, -1⟩, ⟨lnI1c1 p0 p1 i j, ln0 p0 p1 i (j+1), 1⟩])

/-- incidence_matrix.py 48-62 (`_2dCSCG_1Form_Inner`, rot). -/
def rotInnerW (p0 p1 : Nat) : List Write :=
  loop2 p0 p1 (fun i j =>
    [⟨ln2 p0 p1 i j, lnI1c0 p0 p1 i j, 1⟩, ⟨ln2 p0 p1 i j, lnI1c0 p0 p1 i (j+1), -1⟩,
     ⟨ln2 p0 p1 i j, lnI1c1 p0 p1 i j, -1⟩, ⟨ln2 p0 p1 i j, lnI1c1 p0 p1 (i+1) j, 1⟩])

/-- incidence_matrix.py 64-85 (`_2dCSCG_0Form_Outer`, curl). -/
def curlOuterW (p0 p1 : Nat) : List Write :=
  loop2 (p0 + 1) p1 (fun i j =>
    [⟨lnO1c0 p0 p1 i j, ln0 p0 p1 i j, -1⟩, ⟨lnO1c0 p0 p1 i j, ln0 p0 p1 i (j+1), 1⟩]) ++
  loop2 p0 (p1 + 1) (fun i j =>
    [⟨lnO1c1 p0 p1 i j, ln0 p0 p1 i j, 1⟩, ⟨lnO1c1 p0 p1 i j, ln0 p0 p1 (i+1) j, -1⟩])

/-- incidence_matrix.py 87-102 (`_2dCSCG_1Form_Outer`, div). -/
def divOuterW (p0 p1 : Nat) : List Write :=
  loop2 p0 p1 (fun i j =>
    [⟨ln2 p0 p1 i j, lnO1c1 p0 p1 i j, -1⟩, ⟨ln2 p0 p1 i j, lnO1c1 p0 p1 i (j+1), 1⟩,
     ⟨ln2 p0 p1 i j, lnO1c0 p0 p1 i j, -1⟩, ⟨ln2 p0 p1 i j, lnO1c0 p0 p1 (i+1) j, 1⟩])

/-- The four incidence matrices. -/
def gradInner (p0 p1 : Nat) : Nat → Nat → Int := matOf (gradInnerW p0 p1)
@[inherit_doc gradInner] def rotInner (p0 p1 : Nat) : Nat → Nat → Int := matOf (rotInnerW p0 p1)
@[inherit_doc gradInner] def curlOuter (p0 p1 : Nat) : Nat → Nat → Int := matOf (curlOuterW p0 p1)
@[inherit_doc gradInner] def divOuter (p0 p1 : Nat) : Nat → Nat → Int := matOf (divOuterW p0 p1)

end Two

/-! ## 3D -/
namespace Three

/-- num_basis.py 140-147: `(p0+1)*(p1+1)*(p2+1)`. -/
def nb0 (p0 p1 p2 : Nat) : Nat := (p0 + 1) * (p1 + 1) * (p2 + 1)

/-- num_basis.py 149-158: components of the 1-form. -/
def nb1c0 (p0 p1 p2 : Nat) : Nat := p0 * (p1 + 1) * (p2 + 1)
@[inherit_doc nb1c0] def nb1c1 (p0 p1 p2 : Nat) : Nat := (p0 + 1) * p1 * (p2 + 1)
@[inherit_doc nb1c0] def nb1c2 (p0 p1 p2 : Nat) : Nat := (p0 + 1) * (p1 + 1) * p2
@[inherit_doc nb1c0] def nb1 (p0 p1 p2 : Nat) : Nat := nb1c0 p0 p1 p2 + nb1c1 p0 p1 p2 + nb1c2 p0 p1 p2

/-- num_basis.py 160-169: components of the 2-form. -/
def nb2c0 (p0 p1 p2 : Nat) : Nat := (p0 + 1) * p1 * p2
@[inherit_doc nb2c0] def nb2c1 (p0 p1 p2 : Nat) : Nat := p0 * (p1 + 1) * p2
@[inherit_doc nb2c0] def nb2c2 (p0 p1 p2 : Nat) : Nat := p0 * p1 * (p2 + 1)
@[inherit_doc nb2c0] def nb2 (p0 p1 p2 : Nat) : Nat := nb2c0 p0 p1 p2 + nb2c1 p0 p1 p2 + nb2c2 p0 p1 p2

/-- num_basis.py 171-176. -/
def nb3 (p0 p1 p2 : Nat) : Nat := p0 * p1 * p2

/-- 3D local_numbering.py 381-385: shape `(p0+1, p1+1, p2+1)`. -/
def ln0 (p0 p1 _p2 i j k : Nat) : Nat := fIdx3 (p0 + 1) (p1 + 1) i j k

/-- 3D local_numbering.py 388-396: the three components of the 1-form, shape `p+1` with `p[i]` lowered in
direction `i`, offset `np.sum(components[0:i])`. -/
def ln1c0 (p0 p1 _p2 i j k : Nat) : Nat := fIdx3 p0 (p1 + 1) i j k
@[inherit_doc ln1c0] def ln1c1 (p0 p1 p2 i j k : Nat) : Nat := fIdx3 (p0 + 1) p1 i j k + nb1c0 p0 p1 p2
@[inherit_doc ln1c0] def ln1c2 (p0 p1 p2 i j k : Nat) : Nat :=
  fIdx3 (p0 + 1) (p1 + 1) i j k + (nb1c0 p0 p1 p2 + nb1c1 p0 p1 p2)

/-- 3D local_numbering.py 399-407: the three components of the 2-form. -/
def ln2c0 (p0 p1 _p2 i j k : Nat) : Nat := fIdx3 (p0 + 1) p1 i j k
@[inherit_doc ln2c0] def ln2c1 (p0 p1 p2 i j k : Nat) : Nat := fIdx3 p0 (p1 + 1) i j k + nb2c0 p0 p1 p2
@[inherit_doc ln2c0] def ln2c2 (p0 p1 p2 i j k : Nat) : Nat :=
  fIdx3 p0 p1 i j k + (nb2c0 p0 p1 p2 + nb2c1 p0 p1 p2)

/-- 3D local_numbering.py 410-412: shape `(p0, p1, p2)`. -/
def ln3 (p0 p1 _p2 i j k : Nat) : Nat := fIdx3 p0 p1 i j k

/-- `for k in range(K): for j in range(J): for i in range(I): body i j k`. -/
def loop3 (I J K : Nat) (body : Nat → Nat → Nat → List Write) : List Write :=
  (List.range K).flatMap fun k => (List.range J).flatMap fun j => (List.range I).flatMap fun i => body i j k

/-- 3D incidence_matrix.py 29-58 (`_3dCSCG_0Form`, grad). -/
def gradW (p0 p1 p2 : Nat) : List Write :=
  loop3 p0 (p1 + 1) (p2 + 1) (fun i j k =>
    [⟨ln1c0 p0 p1 p2 i j k, ln0 p0 p1 p2 i j k, -1⟩, ⟨ln1c0 p0 p1 p2 i j k, ln0 p0 p1 p2 (i+1) j k, 1⟩]) ++
  loop3 (p0 + 1) p1 (p2 + 1) (fun i j k =>
    [⟨ln1c1 p0 p1 p2 i j k, ln0 p0 p1 p2 i j k, -1⟩, ⟨ln1c1 p0 p1 p2 i j k, ln0 p0 p1 p2 i (j+1) k, 1⟩]) ++
  loop3 (p0 + 1) (p1 + 1) p2 (fun i j k =>
    [⟨ln1c2 p0 p1 p2 i j k, ln0 p0 p1 p2 i j k, -1⟩, ⟨ln1c2 p0 p1 p2 i j k, ln0 p0 p1 p2 i j (k+1), 1⟩])

/-- 3D incidence_matrix.py 61-96 (`_3dCSCG_1Form`, curl). -/
def curlW (p0 p1 p2 : Nat) : List Write :=
  loop3 (p0 + 1) p1 p2 (fun i j k =>
    [⟨ln2c0 p0 p1 p2 i j k, ln1c1 p0 p1 p2 i j k, 1⟩, ⟨ln2c0 p0 p1 p2 i j k, ln1c1 p0 p1 p2 i j (k+1), -1⟩,
     ⟨ln2c0 p0 p1 p2 i j k, ln1c2 p0 p1 p2 i j k, -1⟩, ⟨ln2c0 p0 p1 p2 i j k, ln1c2 p0 p1 p2 i (j+1) k, 1⟩]) ++
  loop3 p0 (p1 + 1) p2 (fun i j k =>
    [⟨ln2c1 p0 p1 p2 i j k, ln1c0 p0 p1 p2 i j k, -1⟩, ⟨ln2c1 p0 p1 p2 i j k, ln1c0 p0 p1 p2 i j (k+1), 1⟩,
     ⟨ln2c1 p0 p1 p2 i j k, ln1c2 p0 p1 p2 i j k, 1⟩, ⟨ln2c1 p0 p1 p2 i j k, ln1c2 p0 p1 p2 (i+1) j k, -1⟩]) ++
  loop3 p0 p1 (p2 + 1) (fun i j k =>
    [⟨ln2c2 p0 p1 p2 i j k, ln1c0 p0 p1 p2 i j k, 1⟩, ⟨ln2c2 p0 p1 p2 i j k, ln1c0 p0 p1 p2 i (j+1) k, -1⟩,
     ⟨ln2c2 p0 p1 p2 i j k, ln1c1 p0 p1 p2 i j k, -1⟩, ⟨ln2c2 p0 p1 p2 i j k, ln1c1 p0 p1 p2 (i+1) j k, 1⟩])

/-- 3D incidence_matrix.py 99-117 (`_3dCSCG_2Form`, div). -/
def divW (p0 p1 p2 : Nat) : List Write :=
  loop3 p0 p1 p2 (fun i j k =>
    [⟨ln3 p0 p1 p2 i j k, ln2c0 p0 p1 p2 i j k, -1⟩, ⟨ln3 p0 p1 p2 i j k, ln2c0 p0 p1 p2 (i+1) j k, 1⟩,
     ⟨ln3 p0 p1 p2 i j k, ln2c1 p0 p1 p2 i j k, -1⟩, ⟨ln3 p0 p1 p2 i j k, ln2c1 p0 p1 p2 i (j+1) k, 1⟩,
     ⟨ln3 p0 p1 p2 i j k, ln2c2 p0 p1 p2 i j k, -1⟩, ⟨ln3 p0 p1 p2 i j k, ln2c2 p0 p1 p2 i j (k+1), 1⟩])

/-- The three incidence matrices. -/
def grad (p0 p1 p2 : Nat) : Nat → Nat → Int := matOf (gradW p0 p1 p2)
@[inherit_doc grad] def curl (p0 p1 p2 : Nat) : Nat → Nat → Int := matOf (curlW p0 p1 p2)
@[inherit_doc grad] def div (p0 p1 p2 : Nat) : Nat → Nat → Int := matOf (divW p0 p1 p2)

end Three
end Mifem
