import Verif.Py.Text

/-!
# Model of `rsbeams/rslattice/Element.py` and `rsbeams/rslattice/Beamline.py`

`Element` and `StructuredBeamline` objects are shared by reference, so they live in a heap and
are named by numbers. Numbers in parameters have an arbitrary type `R` (floats without
rounding). Names and keys are text; `lower` is the ASCII part of `str.lower`.
-/

namespace Verif.Lattice

/-- `str.lower()` for ASCII text. -/
def lower (s : Str) : Str := s.map Char.toLower

/-- A Python dictionary with its insertion order. -/
abbrev Dict (K V : Type) := List (K × V)

/-- `d[k]`, `none` for KeyError. -/
def dget {K V : Type} [DecidableEq K] (d : Dict K V) (k : K) : Option V :=
  (d.find? fun p => p.1 = k).map Prod.snd

/-- `d[k] = v`: an existing key keeps its place. -/
def dset {K V : Type} [DecidableEq K] : Dict K V → K → V → Dict K V
  | [], k, v => [(k, v)]
  | p :: d, k, v => if p.1 = k then (k, v) :: d else p :: dset d k v

/-- Value of an element parameter: a number or text. -/
inductive PVal (R : Type)
  | num (x : R)
  | str (s : Str)
  deriving DecidableEq, Repr

/-- `AgnosticDict` (Element.py:49-59). Keys are stored in lower case. -/
abbrev Params (R : Type) := Dict Str (PVal R)

/-- `AgnosticDict.__getitem__` (Element.py:53-55). -/
def Params.getItem {R : Type} (d : Params R) (key : Str) : Option (PVal R) := dget d (lower key)

/-- `AgnosticDict.__setitem__` (Element.py:57-59). -/
def Params.setItem {R : Type} (d : Params R) (key : Str) (v : PVal R) : Params R := dset d (lower key) v

/-- `.get(key)`, inherited from `dict`: no lower case conversion. -/
def Params.get {R : Type} (d : Params R) (key : Str) : Option (PVal R) := dget d key

/-- `key in d`, inherited from `dict`. -/
def Params.contains {R : Type} (d : Params R) (key : Str) : Bool := (dget d key).isSome

/-- An `Element` (Element.py:62-83); `top` is `_beamline`. -/
structure Elem (R : Type) where
  name : Str
  type : Str
  params : Params R
  top : Nat
  deriving DecidableEq, Repr

/-- An entry of `sequence`: a reference to an element or to a beamline. -/
inductive Item
  | elem (i : Nat)
  | line (i : Nat)
  deriving DecidableEq, Repr

/-- A `StructuredBeamline` (Beamline.py:43-50). -/
structure Line where
  name : Option Str
  elements : Dict Str Nat
  lines : Dict (Option Str) Nat
  seq : List Item
  top : Nat
  deriving DecidableEq, Repr

/-- All objects. `elem i` and `line i` mean something for `i < nElem`, `i < nLine`. -/
structure Heap (R : Type) where
  elem : Nat → Elem R
  nElem : Nat
  line : Nat → Line
  nLine : Nat

variable {R : Type}

/-- An element that does not exist. -/
def noElem : Elem R := ⟨[], [], [], 0⟩

/-- A new `StructuredBeamline(name)` at address `l` (Beamline.py:43-50): `_top` is itself. -/
def newLine (name : Option Str) (l : Nat) : Line := ⟨name, [], [], [], l⟩

/-- One beamline and nothing else. -/
def Heap.init (name : Option Str) : Heap R :=
  { elem := fun _ => noElem, nElem := 0, line := fun l => newLine name l, nLine := 1 }

/-- Replace a beamline. -/
def Heap.setLine (h : Heap R) (l : Nat) (x : Line) : Heap R :=
  { h with line := fun k => if k = l then x else h.line k }

/-- Replace an element. -/
def Heap.setElem (h : Heap R) (e : Nat) (x : Elem R) : Heap R :=
  { h with elem := fun k => if k = e then x else h.elem k }

/-- Parameter names that cannot be given as keyword arguments of `Element`, because the
constructor has arguments of that name (Element.py:68). -/
def reserved : List Str := ["self".toList, "element_name".toList, "element_type".toList]

/-- Parameters stored by the constructor (Element.py:78-83). -/
def initParams (ps : List (Str × PVal R)) : Params R :=
  ps.foldl (fun d kv => Params.setItem d kv.1 kv.2) []

/-- `Element(name, type, **params)` (Element.py:68-83, 123-129). -/
def newElem (name type : Str) (ps : List (Str × PVal R)) : Except PyErr (Elem R) :=
  if ps.any fun kv => reserved.contains kv.1 then .error .typeError
  else .ok ⟨name, strip (lower type), initParams ps, 0⟩

/-- Append an item to the sequence of beamline `l`. -/
def Heap.append (h : Heap R) (l : Nat) (i : Item) : Heap R :=
  h.setLine l { h.line l with seq := (h.line l).seq ++ [i] }

/-- Address of the element called `name` in beamline `l`, created if needed (Beamline.py:77-83). -/
def Heap.useElement (h : Heap R) (l : Nat) (name type : Str) (ps : List (Str × PVal R)) :
    Except PyErr (Heap R × Nat) :=
  match dget (h.line l).elements name with
  | some e => .ok (h, e)
  | none => do
    let x ← newElem name type ps
    let h1 : Heap R := { h.setElem h.nElem x with nElem := h.nElem + 1 }
    .ok (h1.setLine l { h1.line l with elements := dset (h1.line l).elements name h.nElem }, h.nElem)

/-- `add_element` (Beamline.py:60-92): the heap afterwards and the exception, if any. -/
def Heap.addElement (h : Heap R) (l : Nat) (name type : Str) (ps : List (Str × PVal R))
    (subline : Bool) : Heap R × Option PyErr :=
  match h.useElement l name type ps with
  | .error err => (h, some err)
  | .ok (h1, e) =>
    let h2 := h1.setElem e { h1.elem e with top := (h1.line l).top }
    if subline then
      match (h2.line l).seq.getLast? with
      | none => (h2, some .indexError)
      | some (.elem _) => (h2, some .assertionError)
      | some (.line k) => (h2.append k (.elem e), none)
    else (h2.append l (.elem e), none)

/-- Address of the sub-beamline called `name`, created if needed (Beamline.py:95-100). -/
def Heap.useLine (h : Heap R) (l : Nat) (name : Option Str) : Heap R × Nat :=
  match dget (h.line l).lines name with
  | some k => (h, k)
  | none =>
    let h1 : Heap R := { h.setLine h.nLine (newLine name h.nLine) with nLine := h.nLine + 1 }
    (h1.setLine l { h1.line l with lines := dset (h1.line l).lines name h.nLine }, h.nLine)

/-- `add_beamline` (Beamline.py:94-104). `if self._top` is always true. -/
def Heap.addBeamline (h : Heap R) (l : Nat) (name : Option Str) : Heap R :=
  let r := h.useLine l name
  let h2 := r.1.append l (.line r.2)
  h2.setLine r.2 { h2.line r.2 with top := (h2.line l).top }

/-- Assign the parameters of one entry (Beamline.py:223-234). A beamline has no `parameters`. -/
def Heap.editItem (h : Heap R) (pv : List (Str × PVal R)) : Item → Heap R × Option PyErr
  | .line _ => if pv = [] then (h, none) else (h, some .attributeError)
  | .elem e => (h.setElem e { h.elem e with
      params := pv.foldl (fun d kv => Params.setItem d kv.1 kv.2) (h.elem e).params }, none)

/-- The loop over the entries (Beamline.py:222-234). -/
def Heap.editItems (pv : List (Str × PVal R)) : List Item → Heap R → Heap R × Option PyErr
  | [], h => (h, none)
  | i :: is, h => match h.editItem pv i with
    | (h', none) => Heap.editItems pv is h'
    | (h', some err) => (h', some err)

/-- `ele.name` of an entry. -/
def Heap.itemName (h : Heap R) : Item → Option Str
  | .elem e => some (h.elem e).name
  | .line k => (h.line k).name

/-- `edit_element(name, parameters, values)` (Beamline.py:192-234) for a name. Single values
are lists of length one; `zip` stops at the shorter list. -/
def Heap.editName (h : Heap R) (l : Nat) (name : Str) (ps : List Str) (vs : List (PVal R)) :
    Heap R × Option PyErr :=
  Heap.editItems (ps.zip vs) ((h.line l).seq.filter fun i => h.itemName i = some name) h

/-- `s[i]` with Python's negative indices. -/
def pyIndex {α : Type} (s : List α) (i : Int) : Option α :=
  if 0 ≤ i then s[i.toNat]?
  else if -(s.length : Int) ≤ i then s[(s.length + i).toNat]? else none

/-- `edit_element(i, parameters, values)` for a position. -/
def Heap.editIndex (h : Heap R) (l : Nat) (i : Int) (ps : List Str) (vs : List (PVal R)) :
    Heap R × Option PyErr :=
  if ps.zip vs = [] then (h, none)
  else match pyIndex (h.line l).seq i with
    | none => (h, some .indexError)
    | some it => h.editItem (ps.zip vs) it

/-- The recursion of `get_beamline_elements` (Beamline.py:168-180) on one entry, for nesting
up to the given depth; `none`: deeper than that. -/
def Heap.flatItem (h : Heap R) : Nat → Item → Option (List Nat)
  | 0, .elem e => some [e]
  | 0, .line _ => none
  | _ + 1, .elem e => some [e]
  | n + 1, .line l => ((h.line l).seq.mapM (Heap.flatItem h n)).map List.flatten

/-- `get_beamline_elements()` of beamline `l` (Beamline.py:161-180). -/
def Heap.elementsOf (h : Heap R) (fuel l : Nat) : Option (List Nat) :=
  ((h.line l).seq.mapM (h.flatItem fuel)).map List.flatten

/-- `length += ele.parameters["L"]` with KeyError ignored (Beamline.py:185-188,
Element.py:114-117). -/
def addLength [Add R] (len : R) (x : Elem R) : Except PyErr R :=
  match Params.getItem x.params "L".toList with
  | none => .ok len
  | some (.num v) => .ok (len + v)
  | some (.str _) => .error .typeError

/-- The loop of `_get_length` (Beamline.py:182-190). -/
def sumLength [Add R] (h : Heap R) : List Nat → R → Except PyErr R
  | [], len => .ok len
  | e :: es, len => do
    let len' ← addLength len (h.elem e)
    sumLength h es len'

/-- `length` (Beamline.py:52-54, 182-190). -/
def Heap.length [Zero R] [Add R] (h : Heap R) (fuel l : Nat) : Option (Except PyErr R) :=
  (h.elementsOf fuel l).map fun es => sumLength h es 0

/-- The loop of `_get_edge` (Element.py:111-121): stops at the element itself. -/
def sumEdge [Add R] (h : Heap R) (me : Nat) : List Nat → R → Except PyErr R
  | [], len => .ok len
  | e :: es, len =>
    if e = me then .ok len
    else do
      let len' ← addLength len (h.elem e)
      sumEdge h me es len'

/-- `edge` (Element.py:85-93, 107-121). -/
def Heap.edge [Zero R] [Add R] (h : Heap R) (fuel e : Nat) : Option (Except PyErr R) :=
  (h.elementsOf fuel (h.elem e).top).map fun es => sumEdge h e es 0

/-- A call on beamline object number `l`. -/
inductive Op (R : Type)
  | addElement (l : Nat) (name type : Str) (ps : List (Str × PVal R)) (subline : Bool)
  | addBeamline (l : Nat) (name : Option Str)
  | editName (l : Nat) (name : Str) (ps : List Str) (vs : List (PVal R))
  | editIndex (l : Nat) (i : Int) (ps : List Str) (vs : List (PVal R))

/-- The object the call is made on. -/
def Op.target : Op R → Nat
  | .addElement l .. => l
  | .addBeamline l .. => l
  | .editName l .. => l
  | .editIndex l .. => l

/-- One call; an exception is caught by the caller. Calls on objects that do not exist are not
possible in Python and do nothing here. -/
def Heap.step (h : Heap R) (op : Op R) : Heap R :=
  if op.target < h.nLine then
    match op with
    | .addElement l n t ps s => (h.addElement l n t ps s).1
    | .addBeamline l n => h.addBeamline l n
    | .editName l n ps vs => (h.editName l n ps vs).1
    | .editIndex l i ps vs => (h.editIndex l i ps vs).1
  else h

/-- A history of calls that starts with one new beamline. -/
def runOps (name : Option Str) (ops : List (Op R)) : Heap R := ops.foldl Heap.step (Heap.init name)

end Verif.Lattice
