import Mathlib.Logic.Basic

/-! Instances used by several modules. -/

namespace Verif

deriving instance DecidableEq for Except

end Verif
