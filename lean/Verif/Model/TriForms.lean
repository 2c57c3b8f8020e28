import Mathlib.Algebra.BigOperators.Intervals
import Verif.Model.Tri

/-!
# Coboundary and discretization of forms on triangular meshes

Python sources, all under `/repo/objects/miUsGrid/triangular/`:
* `space/incidence_matrix.py`
* `forms/standard/_1/{base,inner,outer}/IDT.py` (transition matrices)
* `forms/standard/base/numbering/do/find.py` lines 77-104
* `forms/standard/base/coboundary.py` lines 28-86, 103-114
* `forms/standard/_0/base/discretize/scalar/standard.py` lines 31-54
* `forms/standard/_1/{inner,outer}/discretize/vector/standard.py`
-/

namespace Mifem.Tri

/-! ## Incidence matrices -/

/-- `E = np.zeros(...)`, then `E[row, column] = value` one after another. -/
def setAll (l : List (Nat × Nat × Int)) : Nat → Nat → Int :=
  l.foldl (fun E a r c => if r = a.1 ∧ c = a.2.1 then a.2.2 else E r c) fun _ _ => 0

/-- incidence_matrix.py 24-45 (curl). -/
def curlOuter (p : Nat) : List (Nat × Nat × Int) :=
  ((List.range p).flatMap fun j => (List.range (p + 1)).flatMap fun i =>
    [(lnOuterDy p i j, ln0 p i j, -1), (lnOuterDy p i j, ln0 p i (j + 1), 1)]) ++
  ((List.range (p + 1)).flatMap fun j => (List.range p).flatMap fun i =>
    (lnOuterDx p i j).toList.flatMap fun r => [(r, ln0 p i j, 1), (r, ln0 p (i + 1) j, -1)])

/-- incidence_matrix.py 48-69 (grad). -/
def gradInner (p : Nat) : List (Nat × Nat × Int) :=
  ((List.range (p + 1)).flatMap fun j => (List.range p).flatMap fun i =>
    (lnInnerDx p i j).toList.flatMap fun r => [(r, ln0 p i j, -1), (r, ln0 p (i + 1) j, 1)]) ++
  ((List.range p).flatMap fun j => (List.range (p + 1)).flatMap fun i =>
    [(lnInnerDy p i j, ln0 p i j, -1), (lnInnerDy p i j, ln0 p i (j + 1), 1)])

/-- incidence_matrix.py 71-88 (div). -/
def divOuter (p : Nat) : List (Nat × Nat × Int) :=
  (List.range p).flatMap fun j => (List.range p).flatMap fun i =>
    ((lnOuterDx p i j).toList.map fun c => (ln2 p i j, c, -1)) ++
    ((lnOuterDx p i (j + 1)).toList.map fun c => (ln2 p i j, c, 1)) ++
    [(ln2 p i j, lnOuterDy p i j, -1), (ln2 p i j, lnOuterDy p (i + 1) j, 1)]

/-- incidence_matrix.py 90-106 (rot). -/
def rotInner (p : Nat) : List (Nat × Nat × Int) :=
  (List.range p).flatMap fun j => (List.range p).flatMap fun i =>
    ((lnInnerDx p i j).toList.map fun c => (ln2 p i j, c, 1)) ++
    ((lnInnerDx p i (j + 1)).toList.map fun c => (ln2 p i j, c, -1)) ++
    [(ln2 p i j, lnInnerDy p i j, -1), (ln2 p i j, lnInnerDy p (i + 1) j, 1)]

/-! ## Transition matrices -/

/-- inner/IDT.py 24-43. -/
def eesInner (em : EMap) (e : Nat) : List (Fin 3) :=
  (List.finRange 3).filter fun j => match em e j with
    | none => false
    | some r => r.minus && decide (r.other < e)

/-- outer/IDT.py 22-48. -/
def eesOuter (em : EMap) (e : Nat) : List (Fin 3) :=
  (List.finRange 3).filter fun j => match em e j with
    | none => false
    | some r => decide (r.other < e) && (decide (r.edge = j) || (decide (j ≠ 1) && decide (r.edge ≠ 1)))

/-- find.py 78-90. -/
def edgeDofsOuter (p : Nat) : Fin 3 → List Nat :=
  ![(List.range p).map (lnOuterDy p p), (List.range p).map (lnOuterDy p 0), (List.range p).filterMap (lnOuterDx p · p)]

/-- find.py 92-104. -/
def edgeDofsInner (p : Nat) : Fin 3 → List Nat :=
  ![(List.range p).map (lnInnerDy p p), (List.range p).map (lnInnerDy p 0), (List.range p).filterMap (lnInnerDx p · p)]

/-- base/IDT.py 56-61: the diagonal `ones`, changed to -1 edge by edge.  (The elements without such an edge have no
transition matrix; the diagonal is 1 then.  The pool of equal matrices is left out.) -/
def transition (dofs : Fin 3 → List Nat) (es : List (Fin 3)) : Nat → Int :=
  es.foldl (fun o m r => if r ∈ dofs m then -1 else o r) fun _ => 1

/-! ## Coboundary -/

section
variable {K : Type*} [CommRing K]

/-- `E @ x` for a matrix with `n` columns. -/
def mulVec (n : Nat) (E : Nat → Nat → Int) (x : Nat → K) (r : Nat) : K := ∑ c ∈ Finset.range n, (E r c : K) * x c

/-- coboundary.py 36-57 and 103-114 for 0-forms: `(tM[e] @ E) @ x`. -/
def coboundary0 (n : Nat) (E : Nat → Nat → Int) (T : Nat → Int) (x : Nat → K) (r : Nat) : K :=
  mulVec n (fun r c => T r * E r c) x r

/-- coboundary.py 59-79 and 103-114 for 1-forms: `(E @ tM[e]) @ x`. -/
def coboundary1 (n : Nat) (E : Nat → Nat → Int) (T : Nat → Int) (x : Nat → K) (r : Nat) : K :=
  mulVec n (fun r c => E r c * T c) x r

/-- num_basis.py. -/
def num0 (p : Nat) : Nat := p * (p + 1) + 1

/-- num_basis.py. -/
def num1 (p : Nat) : Nat := p * p + p * (p + 1)

end

/-! ## Discretization -/

section
variable {K : Type*} [Field K]

/-- scalar/standard.py 36-37, 50-51: node of a local dof, `meshgrid(nodes, nodes, indexing='ij')`, `ravel('F')[p:]`. -/
def discretize0 (p : Nat) (x : Nat → K) (pts : Fin 3 → K × K) (f : (Fin 2 → K) → K) : List K :=
  ((ravelF (p + 1) (p + 1) fun i j => f (mapping pts ![x i, x j])).drop p)

/-- A quadrature rule: nodes and weights. -/
abbrev Quad (K : Type*) := List (K × K)

/-- standard.py 33-35: a quadrature node moved to the interval from node `i` to node `i + 1`. -/
def cellNode (x : Nat → K) (i : Nat) (t : K) : K := 1 / 2 * (x (i + 1) - x i) * (t + 1) + x i

/-- inner/…/standard.py 111-118: `dx` dof `(i, j)`. -/
def innerDx (x : Nat → K) (q : Quad K) (pts : Fin 3 → K × K) (f : (Fin 2 → K) → Fin 2 → K) (i j : Nat) : K :=
  (q.map fun t =>
    let v := ![cellNode x i t.1, x j]
    let J := jacobianMatrix pts v
    let w := f (mapping pts v)
    (J 0 0 * w 0 + J 1 0 * w 1) * t.2 * ((x (i + 1) - x i) * (1 / 2))).sum

/-- inner/…/standard.py 120-127: `dy` dof `(i, j)`. -/
def innerDy (x : Nat → K) (q : Quad K) (pts : Fin 3 → K × K) (f : (Fin 2 → K) → Fin 2 → K) (i j : Nat) : K :=
  (q.map fun t =>
    let v := ![x i, cellNode x j t.1]
    let J := jacobianMatrix pts v
    let w := f (mapping pts v)
    (J 0 1 * w 0 + J 1 1 * w 1) * t.2 * ((x (j + 1) - x j) * (1 / 2))).sum

/-- outer/…/standard.py 111-118. -/
def outerDx (x : Nat → K) (q : Quad K) (pts : Fin 3 → K × K) (f : (Fin 2 → K) → Fin 2 → K) (i j : Nat) : K :=
  (q.map fun t =>
    let v := ![cellNode x i t.1, x j]
    let J := jacobianMatrix pts v
    let w := f (mapping pts v)
    (J 0 0 * w 1 - J 1 0 * w 0) * t.2 * ((x (i + 1) - x i) * (1 / 2))).sum

/-- outer/…/standard.py 120-127. -/
def outerDy (x : Nat → K) (q : Quad K) (pts : Fin 3 → K × K) (f : (Fin 2 → K) → Fin 2 → K) (i j : Nat) : K :=
  (q.map fun t =>
    let v := ![x i, cellNode x j t.1]
    let J := jacobianMatrix pts v
    let w := f (mapping pts v)
    (-(J 0 1) * w 1 + J 1 1 * w 0) * t.2 * ((x (j + 1) - x j) * (1 / 2))).sum

/-- inner/…/standard.py 74-77, 129-141: `dx` from column 1 on (`[p:]`), then `dy`; multiplied by the transition matrix. -/
def discretizeInner (p : Nat) (x : Nat → K) (q : Quad K) (pts : Fin 3 → K × K) (f : (Fin 2 → K) → Fin 2 → K)
    (T : Nat → Int) : List K :=
  ((ravelF p (p + 1) (innerDx x q pts f)).drop p ++ ravelF (p + 1) p (innerDy x q pts f)).mapIdx fun r a => (T r : K) * a

/-- outer/…/standard.py 74-77, 129-142: `dy`, then `dx` from column 1 on. -/
def discretizeOuter (p : Nat) (x : Nat → K) (q : Quad K) (pts : Fin 3 → K × K) (f : (Fin 2 → K) → Fin 2 → K)
    (T : Nat → Int) : List K :=
  (ravelF (p + 1) p (outerDy x q pts f) ++ (ravelF p (p + 1) (outerDx x q pts f)).drop p).mapIdx fun r a => (T r : K) * a

/-- _2/base/discretize/scalar/standard.py 44-57, 68-74: the integral over cell `(i, j)`; cell `(i, j)` has number `i + j p`. -/
def discretize2 (p : Nat) (x : Nat → K) (q0 q1 : Quad K) (pts : Fin 3 → K × K) (f : (Fin 2 → K) → K) : List K :=
  ravelF p p fun i j => (q0.map fun s => (q1.map fun t =>
    let v := ![(s.1 + 1) * (x (i + 1) - x i) / 2 + x i, (t.1 + 1) * (x (j + 1) - x j) / 2 + x j]
    f (mapping pts v) * jacobian pts v * s.2 * t.2 * ((x (i + 1) - x i) * (x (j + 1) - x j) * (1 / 4))).sum).sum

end

end Mifem.Tri
