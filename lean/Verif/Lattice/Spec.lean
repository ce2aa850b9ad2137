import Mathlib.Algebra.Group.Basic
import Verif.Lattice.Beamline

/-!
# What a beamline with sub-beamlines means

Independent of the functions of the model; only its data types are used.
-/

namespace Verif.Lattice

variable {R : Type}

/-- A list of entries unfolds to a list of elements: an element stands for itself, a
sub-beamline for what its own entries unfold to. -/
inductive Unfolds (h : Heap R) : List Item → List Nat → Prop
  | nil : Unfolds h [] []
  | elem {e s es} : Unfolds h s es → Unfolds h (.elem e :: s) (e :: es)
  | line {l s as bs} : Unfolds h (h.line l).seq as → Unfolds h s bs →
      Unfolds h (.line l :: s) (as ++ bs)

/-- The element has length `x`: its parameter `l` (lower case key) is the number `x`, or it has
no such parameter and `x` is 0. -/
def HasLength [Zero R] (x : Elem R) (v : R) : Prop :=
  (∀ p ∈ x.params, p.1 ≠ "l".toList) ∧ v = 0 ∨
  ∃ pre post, x.params = pre ++ ("l".toList, .num v) :: post ∧ ∀ p ∈ pre, p.1 ≠ "l".toList

/-- Total length of a list of entries: the lengths of the elements, and of sub-beamlines. -/
inductive Measures [Zero R] [Add R] (h : Heap R) : List Item → R → Prop
  | nil : Measures h [] 0
  | elem {e s a b} : HasLength (h.elem e) a → Measures h s b → Measures h (.elem e :: s) (a + b)
  | line {l s a b} : Measures h (h.line l).seq a → Measures h s b → Measures h (.line l :: s) (a + b)

/-- Total length of a list of elements. -/
inductive TotalLength [Zero R] [Add R] (h : Heap R) : List Nat → R → Prop
  | nil : TotalLength h [] 0
  | cons {e es a b} : HasLength (h.elem e) a → TotalLength h es b → TotalLength h (e :: es) (a + b)

/-- The calls that use `subline=True`. -/
def Op.isSub : Op R → Bool
  | .addElement _ _ _ _ s => s
  | _ => false

/-- Meaning of a parameter assignment list: the last assignment to a spelling of `k` counts. -/
def assigned (pv : List (Str × PVal R)) (k : Str) : Option (PVal R) :=
  ((pv.filter fun kv => lower kv.1 = lower k).getLast?).map Prod.snd

/-- One definition: the type and the parameters as a function of the parameter name. -/
structure Def (R : Type) where
  type : Str
  param : Str → Option (PVal R)

/-- What a beamline without sub-beamlines is for its user: the names in order, and one
definition per name. -/
structure Flat (R : Type) where
  names : List Str
  defs : Str → Option (Def R)

/-- Nothing. -/
def Flat.empty : Flat R := ⟨[], fun _ => none⟩

/-- Change a definition by assignments. -/
def Def.assign (d : Def R) (pv : List (Str × PVal R)) : Def R :=
  { d with param := fun k => match assigned pv k with
      | some v => some v
      | none => d.param k }

/-- Assignments to the definition of `name`. -/
def Flat.assign (f : Flat R) (name : Str) (pv : List (Str × PVal R)) : Flat R :=
  { f with defs := fun n => if n = name then (f.defs n).map (·.assign pv) else f.defs n }

/-- Add a use of `name`; the first use defines it. -/
def Flat.add (f : Flat R) (name type : Str) (ps : List (Str × PVal R)) : Flat R :=
  { names := f.names ++ [name]
    defs := fun n => if n = name then
        match f.defs n with
        | some d => some d
        | none => some ⟨strip (lower type), assigned ps⟩
      else f.defs n }

/-- The position a Python index means. -/
def position (len : Nat) (i : Int) : Option Nat :=
  if 0 ≤ i ∧ i < len then some i.toNat
  else if i < 0 ∧ -(len : Int) ≤ i then some (len + i).toNat
  else none

/-- The user's view of a call on one beamline. -/
def Flat.step (f : Flat R) : Op R → Flat R
  | .addElement _ n t ps _ =>
    if (f.defs n).isNone ∧ ps.any (fun kv => reserved.contains kv.1) then f else f.add n t ps
  | .addBeamline .. => f
  | .editName _ n ps vs => if n ∈ f.names then f.assign n (ps.zip vs) else f
  | .editIndex _ i ps vs => match (position f.names.length i).bind (f.names[·]?) with
    | some n => f.assign n (ps.zip vs)
    | none => f

end Verif.Lattice
