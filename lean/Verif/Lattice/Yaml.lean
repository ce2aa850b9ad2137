import Verif.Lattice.Beamline

/-!
# Model of `save_beamline` and `load_beamline` (`rsbeams/rslattice/Beamline.py:106-159`)

The YAML file is the tree that is dumped; writing and parsing YAML text are taken to be
lossless.
-/

namespace Verif.Lattice

variable {R : Type}

/-- What is dumped: dictionaries for elements, lists for sub-beamlines. -/
inductive Tree (R : Type)
  | elem (d : Dict Str (PVal R))
  | line (ts : List (Tree R))

/-- `{"name": ele.name, **ele.parameters, "type": ele.type}` (Beamline.py:121-123). -/
def saveDict (x : Elem R) : Dict Str (PVal R) :=
  dset (x.params.foldl (fun d kv => dset d kv.1 kv.2) [("name".toList, .str x.name)]) "type".toList (.str x.type)

/-- `return_elements` on one entry (Beamline.py:117-126), for nesting up to the given depth. -/
def Heap.saveItem (h : Heap R) : Nat → Item → Option (Tree R)
  | 0, .elem e => some (.elem (saveDict (h.elem e)))
  | 0, .line _ => none
  | _ + 1, .elem e => some (.elem (saveDict (h.elem e)))
  | n + 1, .line l => ((h.line l).seq.mapM (Heap.saveItem h n)).map .line

/-- `save_beamline` (Beamline.py:106-135): the tree that is written. -/
def Heap.save (h : Heap R) (fuel l : Nat) : Option (List (Tree R)) := (h.line l).seq.mapM (h.saveItem fuel)

/-- The parameters taken from a dictionary (Beamline.py:149-153). -/
def loadParams (d : Dict Str (PVal R)) : List (Str × PVal R) :=
  d.filter fun kv => kv.1 ≠ "type".toList ∧ kv.1 ≠ "name".toList

/-- One dictionary (Beamline.py:145-154). Names and types that are not text are not modelled. -/
def Heap.loadDict (h : Heap R) (target : Nat) (d : Dict Str (PVal R)) : Heap R × Option PyErr :=
  match dget d "name".toList, dget d "type".toList with
  | some (.str n), some (.str t) => h.addElement target n t (loadParams d) false
  | none, _ => (h, some .keyError)
  | some _, none => (h, some .keyError)
  | _, _ => (h, some .notModelled)

/-- The last entry of the beamline, just appended by `add_beamline`. -/
def Heap.lastLine (h : Heap R) (l : Nat) : Nat :=
  match (h.line l).seq.getLast? with
  | some (.line k) => k
  | _ => l

mutual

/-- `create_beamline(elements, beamline)` (Beamline.py:143-157). Sub-beamlines are always added
to `self`, and always under the name `None`. -/
def loadTrees (self target : Nat) : List (Tree R) → Heap R → Heap R × Option PyErr
  | [], h => (h, none)
  | t :: ts, h => match loadTree self target t h with
    | (h', none) => loadTrees self target ts h'
    | r => r

/-- One step of the loop. -/
def loadTree (self target : Nat) : Tree R → Heap R → Heap R × Option PyErr
  | .elem d, h => h.loadDict target d
  | .line xs, h =>
    let h1 := h.addBeamline self none
    loadTrees self (h1.lastLine self) xs h1

end

/-- `load_beamline` (Beamline.py:137-159): nothing happens when the beamline is not empty. -/
def Heap.load (h : Heap R) (l : Nat) (ts : List (Tree R)) : Heap R × Option PyErr :=
  if (h.line l).seq ≠ [] then (h, none) else loadTrees l l ts h

end Verif.Lattice
