import Verif.Bunch.Model

/-!
# Model of `compute_Hamiltonian` and `print_Twiss` (`rsptcls/bunch.py`)
-/

namespace Verif.Bunch

/-- `StandardBunch.compute_Hamiltonian` (bunch.py:272-277). -/
noncomputable def Bunch.hamiltonian (_b : Bunch) (xHat pxHat yHat pyHat : ℝ) : ℝ :=
  1 / 2 * (pxHat ^ 2 + pyHat ^ 2) + 1 / 2 * (xHat ^ 2 + yHat ^ 2)

/-- `NonlinearBunch.compute_Hamiltonian` (bunch.py:660-667); a potential that is not a number stays so in the sum. -/
noncomputable def NBunch.hamiltonian (b : NBunch) (xHat pxHat yHat pyHat : ℝ) : Except PyErr (Option ℝ) :=
  match potential b.t b.c xHat yHat with
  | .error e => .error e
  | .ok none => .ok none
  | .ok (some v) => .ok (some (1 / 2 * (pxHat ^ 2 + pyHat ^ 2) + v))

/-- `print_Twiss` (bunch.py:260-269): the labels and the numbers printed after the first line. The attributes with underscore are
used, not the properties. -/
def Bunch.printTwiss (b : Bunch) : List (String × ℝ) :=
  [("betax", b.betax), ("betay", b.betay), ("alphax", b.alphax), ("alphay", b.alphay), ("gammax", b.gammax), ("gammay", b.gammay)]

end Verif.Bunch
