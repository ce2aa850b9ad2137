import Verif.Trace.Parser

/-!
# Model of `Trace3d.handle_bends` (`rsbeams/rslattice/trace3d_parser.py:201-215`)

The beamline is object 0 of a heap. If an error is raised the changes made before it are not modelled. Elements are compared
by identity because `Element` defines no `__eq__` (Element.py:60-100).
-/

namespace Verif.Trace

open Verif.Lattice

variable {R : Type}

/-- `seq[i].parameters[key]` (trace3d_parser.py:206-209). -/
def valueAt (h : Heap R) (i : Int) (key : Str) : Except PyErr (PVal R) :=
  match pyIndex (h.line 0).seq i with
  | none => .error .indexError
  | some (.line _) => .error .attributeError
  | some (.elem e) => match Params.getItem (h.elem e).params key with
    | none => .error .keyError
    | some v => .ok v

/-- `v / 2.` (trace3d_parser.py:208); `half` is the division by two. -/
def halfOf (half : R → R) : PVal R → Except PyErr (PVal R)
  | .num x => .ok (.num (half x))
  | .str _ => .error .typeError

/-- The bend at position `i` (trace3d_parser.py:206-212): the heap and the two neighbours. -/
def bendStep (half : R → R) (h : Heap R) (i : Nat) : Except PyErr (Heap R × List Item) := do
  let e1 ← valueAt h ((i : Int) - 1) "BETA".toList
  let e2 ← valueAt h ((i : Int) + 1) "BETA".toList
  let g ← valueAt h ((i : Int) - 1) "G".toList
  let hgap ← halfOf half g
  let fint ← valueAt h ((i : Int) - 1) "K1".toList
  .ok ((h.editIndex 0 i ["E1".toList, "E2".toList, "HGAP".toList, "FINT".toList] [e1, e2, hgap, fint]).1,
    (pyIndex (h.line 0).seq ((i : Int) - 1)).toList ++ (pyIndex (h.line 0).seq ((i : Int) + 1)).toList)

/-- The first loop (trace3d_parser.py:204-212); the last argument is `bend_edges`. -/
def bendLoop (half : R → R) : List Nat → Heap R → List Item → Except PyErr (Heap R × List Item)
  | [], h, edges => .ok (h, edges)
  | i :: is, h, edges => match (h.line 0).seq[i]? with
    | some (.elem e) =>
      if (h.elem e).type = "sbend".toList then
        match bendStep half h i with
        | .error err => .error err
        | .ok (h', two) => bendLoop half is h' (edges ++ two)
      else bendLoop half is h edges
    | some (.line _) => .error .attributeError
    | none => .error .indexError

/-- The second loop (trace3d_parser.py:214-215): `list.remove` takes the first occurrence. -/
def removeLoop : List Item → List Item → Except PyErr (List Item)
  | [], seq => .ok seq
  | edge :: edges, seq => if edge ∈ seq then removeLoop edges (seq.erase edge) else .error .valueError

/-- `handle_bends` (trace3d_parser.py:201-215). -/
def handleBends (half : R → R) (h : Heap R) : Except PyErr (Heap R) :=
  match bendLoop half (List.range (h.line 0).seq.length) h [] with
  | .error e => .error e
  | .ok (h', edges) => match removeLoop edges (h'.line 0).seq with
    | .error e => .error e
    | .ok seq => .ok (h'.setLine 0 { h'.line 0 with seq := seq })

end Verif.Trace
