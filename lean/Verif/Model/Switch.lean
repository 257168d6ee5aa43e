import Verif.Model.Periodic
import Verif.Model.Chebyshev

/-!
# Model of `switch()` in `/repo/dec/periodic.py` and `/repo/dec/chebyshev.py`
-/

namespace Dec

/-- `switch()`, `/repo/dec/periodic.py:98-103`: the pair of functions between primal and dual 0-forms. -/
noncomputable def Periodic.switch : (List ℝ → List ℝ) × (List ℝ → List ℝ) := (Sp.S, Sp.Sinv)

/-- `switch()`, `/repo/dec/chebyshev.py:100-101`. -/
noncomputable def Chebyshev.switch : (List ℝ → List ℝ) × (List ℝ → List ℝ) := (Chebyshev.S_cheb, Chebyshev.S_cheb_pinv)

end Dec
