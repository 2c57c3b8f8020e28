import Verif.Model.Naive

/-! # The gathering vector of an element -/

namespace Mifem.Naive

/-- `np.concatenate([arr.ravel('F') for arr in global_numbering[i]])`
(/repo/objects/CSCG/_2d/forms/standard/base/numbering/Naive.py l.203, l.347-348, l.490-491;
_3d/forms/standard/base/numbering/Naive.py l.222-224, l.369-371, l.518). -/
def gatheringVector (p : List Nat) (comps : List (List Bool)) (a : Arr (Nat × List Nat)) : List (Option Nat) :=
  (places fOrder p comps).map a

end Mifem.Naive
