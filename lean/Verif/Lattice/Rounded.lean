import Verif.Lattice.Beamline
import Verif.Py.Rounding

/-!
# Beamlines with lengths in double precision

The model of `Verif.Lattice.Beamline` is for any type of numbers that can be added; here the numbers are doubles and `+` rounds. Whole
numbers as lengths are taken as doubles.
-/

namespace Verif.Lattice

open Verif.Py

/-- Doubles with rounded addition. -/
structure Dbl (Rd : Rounding) where
  val : ℝ

variable {Rd : Rounding}

/-- `length += ele.parameters["L"]` (Beamline.py:186, Element.py:115). -/
noncomputable instance : Add (Dbl Rd) := ⟨fun a b => ⟨Rd.rnd (a.val + b.val)⟩⟩

/-- `length = 0.0` (Beamline.py:183), `length = 0` (Element.py:111). -/
noncomputable instance : Zero (Dbl Rd) := ⟨⟨0⟩⟩

end Verif.Lattice
