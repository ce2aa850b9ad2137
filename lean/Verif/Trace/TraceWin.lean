import Verif.Trace.Parser

/-!
# Model of `TraceWin` (`rsbeams/rslattice/trace3d_parser.py:236-363`)

A subclass of `Trace3d` with its own lines and handlers. Not modelled: a file that cannot be read,
messages.
-/

namespace Verif.Trace

open Verif.Lattice

variable {R : Type}

/-- Floating point numbers as used by `TraceWin`. -/
structure WNums (R : Type) where
  /-- `float(s)` for text that matched the pattern. -/
  float : Str → R
  add : R → R → R
  sub : R → R → R
  mul : R → R → R
  div : R → R → R
  one : R
  ninety : R
  milli : R
  mega : R
  /-- Speed of light. -/
  c : R
  /-- `bool(x)`. -/
  truthy : R → Bool

/-- `classifiers` and `elements` (trace3d_parser.py:237-256): the class and its parameter names. -/
def winClass (type : Str) : Option (Str × List Str) :=
  if type = "drift".toList then
    some ("drift".toList, ["L".toList, "R".toList, "Ry".toList, "RX_SHIFT".toList, "RY_SHIFT".toList])
  else if type = "quad".toList then
    some ("quadrupole".toList, ["L".toList, "K1".toList, "R".toList, "THETA".toList, "G3U3".toList, "G4U4".toList,
      "G5U5".toList, "G6U6".toList, "GFR".toList])
  else if type = "dtl_cel".toList then
    some ("dtl_cell".toList, ["L".toList, "LQ1".toList, "LQ2".toList, "GC".toList, "B1".toList, "B2".toList,
      "VOLT".toList, "PHASE".toList, "R".toList, "P".toList, "BETA_S".toList, "T_S".toList, "KTS".toList, "K2TS".toList])
  else if type = "ncells".toList then
    some ("rfca".toList, ["MODE".toList, "N".toList, "BETA".toList, "VOLT".toList, "PHASE".toList, "R".toList, "P".toList,
      "KE0TI".toList, "KE0TO".toList, "DZI".toList, "DZO".toList])
  else if type = "set_sync_phase".toList then some ("marker".toList, [])
  else if type = "freq".toList then some ("freq".toList, ["FREQUENCY".toList])
  else if type = "field_map".toList then
    some ("field_map".toList, ["TYPE".toList, "L".toList, "PHASE".toList, "R".toList, "KB".toList, "KE".toList, "KI".toList,
      "KA".toList, "FILE".toList])
  else none

/-- `conversions` (trace3d_parser.py:258-269). -/
def winConv (W : WNums R) : List (Str × R) :=
  [("L".toList, W.milli), ("LQ1".toList, W.milli), ("LQ2".toList, W.milli), ("frequency".toList, W.mega)]

/-- `element_parameters[param] = element_parameters[param] * conversion`, KeyError ignored
(trace3d_parser.py:168-171). -/
def convKey (W : WNums R) (ps : Dict Str R) (kv : Str × R) : Dict Str R :=
  match dget ps kv.1 with
  | some x => dset ps kv.1 (W.mul x kv.2)
  | none => ps

/-- `_convert_units` (trace3d_parser.py:166-171). -/
def winConvert (W : WNums R) (ps : Dict Str R) : Dict Str R := (winConv W).foldl (convKey W) ps

/-- The parser object: beamline, `name_count`, `global_parameters`. -/
structure WState (R : Type) where
  heap : Heap R
  count : Nat
  globals : Dict Str R

/-- `element[key]`. -/
def item (ps : Dict Str R) (key : Str) : Except PyErr R :=
  match dget ps key with
  | some x => .ok x
  | none => .error .keyError

/-- `beamline.add_element(name, type, parameters)` called with numbers. -/
def WState.add (s : WState R) (name type : Str) (ps : List (Str × R)) : WState R × Option PyErr :=
  match s.heap.addElement 0 name type (ps.map fun kv => (kv.1, .num kv.2)) false with
  | (h, e) => ({ s with heap := h }, e)

/-- `handle_dtl_cell` (trace3d_parser.py:271-290). -/
def handleDtl (W : WNums R) (name : Str) (ps : Dict Str R) (s : WState R) : WState R × Option PyErr :=
  match item ps "LQ1".toList, item ps "LQ2".toList, item ps "L".toList, item ps "B1".toList, item ps "B2".toList,
      item ps "PHASE".toList with
  | .ok q1, .ok q2, .ok l, .ok b1, .ok b2, .ok phase =>
    match s.add (name ++ "_q1".toList) "quadrupole".toList [("k1".toList, b1), ("l".toList, q1)] with
    | (s, some e) => (s, some e)
    | (s, none) =>
      let frequency := (dget s.globals "frequency".toList).getD W.one
      match item ps "VOLT".toList with
      | .error e => (s, some e)
      | .ok volt =>
        match s.add (name ++ "cav".toList) "rfca".toList
            [("l".toList, W.sub (W.sub l q1) q2), ("volt".toList, volt), ("phase".toList, W.add phase W.ninety),
             ("frequency".toList, frequency)] with
        | (s, some e) => (s, some e)
        | (s, none) => s.add (name ++ "_q2".toList) "quadrupole".toList [("k1".toList, b2), ("l".toList, q2)]
  | _, _, _, _, _, _ => (s, some .keyError)

/-- `handle_ncells` (trace3d_parser.py:292-301). -/
def handleNcells (W : WNums R) (name : Str) (ps : Dict Str R) (s : WState R) : WState R × Option PyErr :=
  match dget s.globals "frequency".toList with
  | none => (s, some .keyError)
  | some f =>
    if W.truthy f then
      match item ps "BETA".toList, item ps "N".toList, item ps "PHASE".toList, item ps "VOLT".toList with
      | .ok beta, .ok n, .ok phase, .ok volt =>
        let len := W.mul (W.mul beta (W.div W.c f)) n
        s.add (name ++ "cav".toList) "rfca".toList [("l".toList, len), ("volt".toList, W.mul volt len),
          ("phase".toList, W.add phase W.ninety), ("frequency".toList, f)]
      | _, _, _, _ => (s, some .keyError)
    else (s, some .assertionError)

/-- `handle_freq` (trace3d_parser.py:303-304). -/
def handleFreq (ps : Dict Str R) (s : WState R) : WState R × Option PyErr :=
  match item ps "frequency".toList with
  | .ok f => ({ s with globals := dset s.globals "frequency".toList f }, none)
  | .error e => (s, some e)

/-- `handle_field_map` (trace3d_parser.py:306-315). -/
def handleFieldMap (W : WNums R) (name : Str) (ps : Dict Str R) (s : WState R) : WState R × Option PyErr :=
  match item s.globals "frequency".toList, item ps "VOLT".toList, item ps "L".toList, item ps "PHASE".toList with
  | .ok f, .ok volt, .ok l, .ok phase =>
    s.add (name ++ "cav".toList) "rfca".toList [("l".toList, l), ("volt".toList, W.mul volt W.mega), ("phase".toList, phase),
      ("frequency".toList, f)]
  | _, _, _, _ => (s, some .keyError)

/-- `getattr(self, self.handlers[type])(name, parameters, self.beamline)` (trace3d_parser.py:196,
318-323). -/
def winHandler (W : WNums R) (type name : Str) (ps : Dict Str R) (s : WState R) : WState R × Option PyErr :=
  if type = "dtl_cel".toList then handleDtl W name ps s
  else if type = "freq".toList then handleFreq ps s
  else if type = "ncells".toList then handleNcells W name ps s
  else if type = "field_map".toList then handleFieldMap W name ps s
  else (s, some .keyError)

/-- One line (trace3d_parser.py:190-199, 333-356): KeyError of the handler adds the element as it
is. A wrong number of values takes another name for the message. -/
def winLine (W : WNums R) (line : Str) (s : WState R) : Except PyErr (WState R) :=
  let name := 'e' :: natStr s.count
  match splitWs line with
  | [] => .error .indexError
  | w :: _ =>
    match winClass (lower w) with
    | none => .error .keyError
    | some (cls, names) =>
      let values := (findAll matchNumber line).map W.float
      let ps := winConvert W (names.zip values)
      let s := { s with count := s.count + 1 + if names.length = values.length then 0 else 1 }
      match winHandler W (lower w) name ps s with
      | (s, none) => .ok s
      | (s, some .keyError) => match s.add name cls ps with
        | (s, none) => .ok s
        | (_, some e) => .error e
      | (_, some e) => .error e

/-- The loop over the lines (trace3d_parser.py:189-199). -/
def winLines (W : WNums R) : List Str → WState R → Except PyErr (WState R)
  | [], s => .ok s
  | line :: lines, s => match winLine W line s with
    | .ok s' => winLines W lines s'
    | .error e => .error e

/-- `TraceWin(filename, name)()`: all lines are used (trace3d_parser.py:37-46, 361-363). -/
def winFile (W : WNums R) (name : Str) (file : List Str) : Except PyErr (WState R) :=
  match sanitize file with
  | .error e => .error e
  | .ok lines => winLines W lines ⟨Heap.init (some name), 0, []⟩

end Verif.Trace
