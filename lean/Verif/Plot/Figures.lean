import Verif.Plot.Scatter

/-!
# Model of the figures in which `rsplot/RsScatterPS6D.py` draws

`pyplot` keeps one list of open figures for the whole program, in the order in which they were used; its functions act on the figure used
last and open figure 1 if none is open. Of a figure only the points, limits, labels and the title are kept. A figure may be open without axes.
-/

namespace Verif.Plot

/-- The axes of a figure. -/
structure Axes where
  points : List (List ℝ × List ℝ)
  lims : Option ((ℝ × ℝ) × (ℝ × ℝ))
  xlabel : List Char
  ylabel : List Char
  title : List Char

/-- New axes. -/
def Axes.blank : Axes := ⟨[], none, [], [], []⟩

/-- An open figure. -/
structure Fig where
  num : Nat
  axes : Option Axes

/-- The points shown in a figure. -/
def Fig.points (f : Fig) : List (List ℝ × List ℝ) := match f.axes with
  | none => []
  | some ax => ax.points

/-- `pyplot.figure(n)` (RsScatterPS6D.py:77): the open figure of this number, or a new one, becomes the one in use. -/
def useFigure (n : Nat) (figs : List Fig) : List Fig :=
  match figs.find? (fun f => f.num = n) with
  | some f => f :: figs.filter fun g => g.num ≠ n
  | none => ⟨n, none⟩ :: figs

/-- The figures with one in use: figure 1 is opened if there is none. -/
def gcf : List Fig → Fig × List Fig
  | [] => (⟨1, none⟩, [])
  | f :: figs => (f, figs)

/-- A scatter plot in axes, with limits, labels and title (RsScatterPS6D.py:78-83). -/
def Axes.draw (ax : Axes) (q : Plotted) : Axes := ⟨ax.points ++ [(q.h, q.v)], some (q.hLim, q.vLim), q.xlabel, q.ylabel, q.title⟩

/-- The drawing done by `plot_data6d` (RsScatterPS6D.py:76-83). -/
def drawFigs (q : Plotted) (figs : List Fig) : List Fig :=
  let r := gcf (useFigure q.figure figs)
  ⟨r.1.num, some ((r.1.axes.getD Axes.blank).draw q)⟩ :: r.2

/-- `clear_plots` (RsScatterPS6D.py:91-95): the figure in use is cleared and closed. -/
def clearFigs (figs : List Fig) : List Fig := (gcf figs).2

/-- `save_plots` (RsScatterPS6D.py:97-101): the contents of the file, and the figures afterwards. The figure in use stays open with new axes. -/
def saveFigs (figs : List Fig) : Option Axes × List Fig :=
  let r := gcf figs
  (r.1.axes, ⟨r.1.num, some Axes.blank⟩ :: r.2)

/-- The calls of a program that uses such objects; for `show_plots` (RsScatterPS6D.py:87-89) with the numbers of the figures that are closed
while they are shown. -/
inductive Act
  | setTitle (title : List Char)
  | setLabel (i : Int) (label : List Char)
  | setData (data : List (List ℝ))
  | plot (h v : Int)
  | shown (closed : List Nat)
  | clear
  | save

/-- The objects of a program, the open figures and the pictures saved so far. -/
structure Screen where
  objs : Nat → Scatter
  figs : List Fig
  saved : List (Option Axes)

/-- One object of a program is replaced. -/
def Screen.put (w : Screen) (k : Nat) (p : Scatter) : Screen := { w with objs := fun j => if j = k then p else w.objs j }

/-- One call of a method of object `k`: `set_title`, `set_label`, `set_data6d`, `plot_data6d`, `show_plots`, `clear_plots` and `save_plots`
(RsScatterPS6D.py:37-101). -/
noncomputable def Screen.call (w : Screen) (k : Nat) : Act → Except PyErr Screen
  | .setTitle t => .ok (w.put k { w.objs k with title := t })
  | .setLabel i l => match (w.objs k).setLabel i l with
    | .error e => .error e
    | .ok p => .ok (w.put k p)
  | .setData d => .ok (w.put k { w.objs k with data := d })
  | .plot h v => match (w.objs k).plot h v with
    | .error e => .error e
    | .ok (q, p) => .ok { w.put k p with figs := drawFigs q w.figs }
  | .shown closed => .ok { w with figs := w.figs.filter fun f => f.num ∉ closed }
  | .clear => .ok { w with figs := clearFigs w.figs }
  | .save => .ok { w with figs := (saveFigs w.figs).2, saved := w.saved ++ [(saveFigs w.figs).1] }

/-- A program: calls of methods of objects, up to the first exception. -/
noncomputable def Screen.run (w : Screen) : List (Nat × Act) → Except PyErr Screen
  | [] => .ok w
  | (k, c) :: cs => match w.call k c with
    | .error e => .error e
    | .ok w' => w'.run cs

end Verif.Plot
