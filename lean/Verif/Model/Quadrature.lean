import Verif.Model.Discretize
import Mathlib.Algebra.Order.Group.Abs

/-! # Quadrature rules

Model of `components/quadrature.py`. -/

namespace Mifem.Quadrature
open Mifem.Disc (Rule)

/-- The names in `___PRIVATE_coded_quadrature___` (quadrature.py l.43-66). -/
inductive Category where
  | gauss
  | lobatto
  | extendedGauss
  | chebyshev
  deriving DecidableEq

section
variable {K : Type*} [Field K] [LinearOrder K]

/-- `scipy.special.legendre(n)(x)` (used in l.146, l.216, l.239): the Legendre polynomial, by the three-term recursion. Taken from
the documentation of scipy. Values are exact here, floating point in the code. -/
def leg : Nat → K → K
  | 0, _ => 1
  | 1, x => x
  | n + 2, x => ((2 * n + 3) * x * leg (n + 1) x - (n + 1) * leg n x) / (n + 2)

/-- `___PRIVATE_legendre_prime___` (quadrature.py l.185-217). -/
def legendrePrime (x : K) (n : Nat) : K :=
  if n = 0 then 0
  else if n = 1 then 1
  else (n * leg (n - 1) x - n * x * leg n x) / (1 - x ^ 2)

/-- `___PRIVATE_legendre_prime_lobatto___` (quadrature.py l.219-220). -/
def primeLobatto (x : K) (n : Nat) : K := (1 - x ^ 2) ^ 2 * legendrePrime x n

/-- `___PRIVATE_legendre_double_prime___` (quadrature.py l.222-240). -/
def doublePrime (x : K) (n : Nat) : K := (2 * x * legendrePrime x n - n * (n + 1) * leg n x) * (1 - x ^ 2)

/-- `___PRIVATE_newton_method___` (quadrature.py l.242-277) with `turns = n_max - 1`. The history is not kept. Division by zero,
which gives `inf` or `nan` in numpy, gives 0 here. -/
def newton (f df : K → K) (tol : K) : Nat → K → K
  | 0, x => x
  | turns + 1, x =>
    let y := x - f x / df x
    if |y - x| < tol then y else newton f df tol turns y

/-- What the class takes from outside: `scipy.special.roots_legendre`, `numpy.polynomial.legendre.leggauss`,
`numpy.polynomial.chebyshev.chebgauss`, `np.cos(i / p * np.pi)` and `np.finfo(float).eps * 10`. -/
structure Lib (K : Type*) where
  rootsLegendre : Nat → Rule K
  leggauss : Nat → Rule K
  chebgauss : Nat → Rule K
  cosines : Nat → Nat → K
  eps10 : K

/-- `nodal_pts` of `___PRIVATE_compute_Lobatto___` (quadrature.py l.135-144): the ends, and inside what Newton's method finds. -/
def nodal (L : Lib K) (p i : Nat) : K :=
  if i = 0 then 1
  else if i = p then -1
  else newton (primeLobatto · p) (doublePrime · p) L.eps10 99 (L.cosines p i)

/-- `___PRIVATE_compute_Lobatto___` (quadrature.py l.133-147): the nodes are returned in reversed order, the weights are not. -/
def computeLobatto (L : Lib K) (p : Nat) : Rule K where
  n := p + 1
  x q := nodal L p (p - q)
  w q := 2 / (p * (p + 1) * leg p (nodal L p q) ^ 2)

/-- `___PRIVATE_compute_Gauss___` (quadrature.py l.149-156). -/
def computeGauss (L : Lib K) (p : Nat) : Rule K := L.rootsLegendre (p + 1)

/-- `___PRIVATE_compute_extended_Gauss___` (quadrature.py l.158-167). -/
def computeExtended (L : Lib K) (p : Nat) : Rule K where
  n := p + 1
  x q := if q = 0 then -1 else if q = p then 1 else (L.leggauss (p - 1)).x (q - 1)
  w q := if q = 0 then 0 else if q = p then 0 else (L.leggauss (p - 1)).w (q - 1)

/-- `___PRIVATE_compute_Chebyshev___` (quadrature.py l.169-183). -/
def computeChebyshev (L : Lib K) (p : Nat) : Rule K where
  n := (L.chebgauss (p + 1)).n
  x q := (L.chebgauss (p + 1)).x ((L.chebgauss (p + 1)).n - 1 - q)
  w q := (L.chebgauss (p + 1)).w q

/-- The `getattr` in `quad` (quadrature.py l.100, l.104). -/
def compute (L : Lib K) : Category → Nat → Rule K
  | .gauss, p => computeGauss L p
  | .lobatto, p => computeLobatto L p
  | .extendedGauss, p => computeExtended L p
  | .chebyshev, p => computeChebyshev L p

/-- `___PRIVATE_check_p___` (quadrature.py l.68-78). -/
def checkP : Category → Nat → Bool
  | .gauss, _ => true
  | .chebyshev, _ => true
  | .lobatto, p => decide (1 ≤ p)
  | .extendedGauss, p => decide (2 ≤ p)

/-- `Quadrature(p, category).quad` (quadrature.py l.17-41, l.95-107), one rule per direction; `none` if a check fails. The orders
are integers; `category` is given for every direction, a single string stands for as many copies. -/
def quad (L : Lib K) (ps : List (Category × Nat)) : Option (List (Rule K)) :=
  if ps.all fun c => checkP c.1 c.2 then some (ps.map fun c => compute L c.1 c.2) else none

end

section
variable {K : Type*} [Field K]

/-- `np.tensordot(A, b, axes=0)` where `A` has `n` axes: entries are indexed by lists. -/
def tensordot (A : List Nat → K) (n : Nat) (b : Nat → K) (idx : List Nat) : K := A (idx.take n) * b (idx.getD n 0)

/-- The loop for `temp_weights` (quadrature.py l.118-123): `ws` are the weights of the directions after the first `n`. -/
def weightLoop (A : List Nat → K) (n : Nat) : List (Nat → K) → List Nat → K
  | [] => A
  | b :: ws => weightLoop (tensordot A n b) (n + 1) ws

/-- `temp_weights` in `quad_ndim`. -/
def tensorWeights : List (Rule K) → List Nat → K
  | [] => fun _ => 1
  | r :: rs => weightLoop (fun idx => r.w (idx.getD 0 0)) 1 (rs.map (·.w))

/-- `np.meshgrid(*self.quad[0], indexing='ij')[i]` (quadrature.py l.124). -/
def meshNode (rs : List (Rule K)) (i : Nat) (idx : List Nat) : K :=
  ((rs[i]?).map fun r => r.x (idx.getD i 0)).getD 0

/-- The multi-index of entry `m` of `A.ravel('F')` for an array of the given shape. -/
def unravelF : List Nat → Nat → List Nat
  | [], _ => []
  | n :: shape, m => m % n :: unravelF shape (m / n)

/-- The weights in `quad_ndim_ravel` (quadrature.py l.128-131). For one direction the arrays of `quad` are returned, which is what
this gives too. -/
def ravelWeight (rs : List (Rule K)) (m : Nat) : K := tensorWeights rs (unravelF (rs.map (·.n)) m)

/-- Coordinate `i` of the nodes in `quad_ndim_ravel`. -/
def ravelNode (rs : List (Rule K)) (i m : Nat) : K := meshNode rs i (unravelF (rs.map (·.n)) m)

end

end Mifem.Quadrature
