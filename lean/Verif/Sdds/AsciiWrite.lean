import Verif.Sdds.Write

/-!
# Model of `writeSDDS.save_sdds` for ASCII files

`rsbeams/rsdata/SDDS.py:650-712` with `dataMode='ascii'`, and `numpy.savetxt` with its default format `%.18e`, delimiter and newline.
-/

namespace Verif.Sdds

/-- `'%.18e' % x` for an element of an array. The formatting of floats is not modelled. -/
abbrev Sci := ADType → Nat → Str

/-- `'{}'.format(parData)` (SDDS.py:691). -/
def dataText (ft : FloatText) : PyVal → Str
  | .int i => intStr i
  | .float x => ft.fmt x
  | .str s => s

/-- The lines of the parameters that have data (SDDS.py:687-691). -/
def paramsText (ft : FloatText) (w : Writer) : Str :=
  (w.params.filterMap WParam.data).flatMap fun v => dataText ft v ++ ['\n']

/-- The words of row `i` of the stacked array. -/
def rowWords (env : Env) (sci : Sci) (cols : List WCol) (i : Nat) : List Str :=
  cols.map fun c => sci (stackType cols) (castTo env c.dtype (stackType cols) (c.data.getD i 0))

/-- The line that `np.savetxt` writes for row `i` (SDDS.py:705). -/
def rowText (env : Env) (sci : Sci) (cols : List WCol) (i : Nat) : Str := [' '].intercalate (rowWords env sci cols i) ++ ['\n']

/-- The file after `save_sdds(fileName, dataMode='ascii')` (SDDS.py:650-712). When the columns have different lengths the file is left
empty. The number of rows is left out if it is zero. -/
def saveAscii (env : Env) (sci : Sci) (w : Writer) : Bytes :=
  match stackRows w.cols with
  | none => []
  | some rows =>
    utf8 (headerText env.ft w "ascii".toList) ++ utf8 (paramsText env.ft w) ++
      (if rows = 0 then [] else utf8 (natStr rows ++ ['\n'])) ++ (List.range rows).flatMap fun i => utf8 (rowText env sci w.cols i)

end Verif.Sdds
