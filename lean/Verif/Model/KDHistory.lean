import Verif.Model.KDTree

namespace Verif.KDT
open Verif
variable {K : Type} [LinearOrder K] [Zero K] [Add K] [Sub K] [Mul K] [FloatOps K]

/-- A sequence of `PyKDT::add` calls on one object (`src/pymodels/py_kdt.rs:60-77`): a call that returns
an error raises in Python and leaves the object as it was. -/
def PyKDT.adds (us : USort) (s : PyKDT K) (Xs : List (Mat K)) : PyKDT K :=
  Xs.foldl (fun s X => match s.add us X with | .ok s' => s' | .error _ => s) s

end Verif.KDT
