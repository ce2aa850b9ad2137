import Verif.Plot.Figures
import Verif.Plot.PropsScatter

/-!
# Property C165: saved scatter plots
-/

namespace Verif.Plot

/-- What is shown in the open figure of a number. -/
def pointsIn (n : Nat) (figs : List Fig) : List (List ℝ × List ℝ) := match figs.find? (fun f => f.num = n) with
  | some f => f.points
  | none => []

theorem drawFigs_eq (q : Plotted) (figs : List Fig) :
    drawFigs q figs = ⟨q.figure, some ⟨pointsIn q.figure figs ++ [(q.h, q.v)], some (q.hLim, q.vLim), q.xlabel, q.ylabel, q.title⟩⟩ ::
      figs.filter (fun g => g.num ≠ q.figure) := by
  unfold drawFigs pointsIn useFigure
  cases h : figs.find? (fun f => f.num = q.figure) with
  | none =>
    have hn : figs.filter (fun g => g.num ≠ q.figure) = figs := by
      rw [List.filter_eq_self]
      intro g hg
      rw [List.find?_eq_none] at h
      simpa using h g hg
    simp only [gcf, hn, Option.getD_none, Axes.draw, Axes.blank]
  | some f =>
    have hf : f.num = q.figure := by simpa using List.find?_some h
    obtain ⟨n, ax⟩ := f
    simp only at hf
    subst hf
    cases ax with
    | none => simp [gcf, Axes.draw, Axes.blank, Fig.points]
    | some ax => simp [gcf, Axes.draw, Fig.points]

theorem pointsIn_nil {n : Nat} {figs : List Fig} (h : ∀ f ∈ figs, f.num = n → f.points = []) : pointsIn n figs = [] := by
  unfold pointsIn
  cases hf : figs.find? (fun f => f.num = n) with
  | none => rfl
  | some f => exact h f (List.mem_of_find?_eq_some hf) (by simpa using List.find?_some hf)

theorem pointsIn_mem {n : Nat} : ∀ {figs : List Fig}, (figs.map Fig.num).Nodup → ∀ f ∈ figs, f.num = n → pointsIn n figs = f.points := by
  intro figs
  induction figs with
  | nil => simp
  | cons g gs ih =>
    intro hn f hf hfn
    rw [List.map_cons, List.nodup_cons] at hn
    rcases List.mem_cons.mp hf with rfl | hf'
    · simp [pointsIn, hfn]
    · have hg : g.num ≠ n := by
        intro e
        exact hn.1 (List.mem_map.mpr ⟨f, hf', by rw [hfn, e]⟩)
      have := ih hn.2 f hf' hfn
      rw [← this]
      simp [pointsIn, hg]

theorem plot_figure {p : Scatter} {h v : Int} {q : Plotted} {p' : Scatter} (e : p.plot h v = .ok (q, p')) :
    q.figure = p.figNum + 1 ∧ p' = { p with figNum := p.figNum + 1 } := by
  unfold Scatter.plot at e
  split at e
  · split at e
    · split at e
      · simp only [Except.ok.injEq, Prod.mk.injEq] at e
        rw [← e.1, ← e.2]
        exact ⟨rfl, rfl⟩
      · cases e
      · cases e
    · cases e
    · cases e
  · cases e
  · cases e

/-- Six coordinates of two particles. -/
def exScatter : Scatter := ⟨[[1, 2], [3, -4], [5, 6], [0, 0], [7, 8], [1, 1]], firstLabels, "beam".toList, 0⟩

theorem exScatter_plot (n : Nat) : ∃ q p, ({ exScatter with figNum := n } : Scatter).plot 0 1 = .ok (q, p) ∧ q.h = [1, 2] ∧ q.v = [3, -4] := by
  obtain ⟨q, p, h, h1, h2, _⟩ := plot_contains { exScatter with figNum := n } 0 1 rfl rfl (by norm_num) (by norm_num) (by simp [exScatter])
  exact ⟨q, p, h, h1, h2⟩

/-- A call that only sets an attribute. -/
def Act.sets : Act → Prop
  | .setTitle _ | .setLabel _ _ | .setData _ => True
  | _ => False

theorem call_sets {w w' : Screen} {k : Nat} {c : Act} (hc : c.sets) (e : w.call k c = .ok w') : w'.figs = w.figs ∧ w'.saved = w.saved := by
  cases c with
  | setTitle t => cases e; exact ⟨rfl, rfl⟩
  | setLabel i l =>
    simp only [Screen.call] at e
    split at e
    · cases e
    · cases e; exact ⟨rfl, rfl⟩
  | setData d => cases e; exact ⟨rfl, rfl⟩
  | plot h v => exact hc.elim
  | shown l => exact hc.elim
  | clear => exact hc.elim
  | save => exact hc.elim

theorem run_append (cs ds : List (Nat × Act)) : ∀ w : Screen, w.run (cs ++ ds) = match w.run cs with
    | .error e => .error e
    | .ok w' => w'.run ds := by
  induction cs with
  | nil => intro w; rfl
  | cons c cs ih =>
    intro w
    obtain ⟨k, c⟩ := c
    rw [List.cons_append, Screen.run, Screen.run]
    cases w.call k c with
    | error e => rfl
    | ok w' => exact ih w'

theorem run_sets {ss : List (Nat × Act)} : ∀ {w w' : Screen}, (∀ c ∈ ss, c.2.sets) → w.run ss = .ok w' →
    w'.figs = w.figs ∧ w'.saved = w.saved := by
  induction ss with
  | nil => intro w w' _ e; cases e; exact ⟨rfl, rfl⟩
  | cons c ss ih =>
    intro w w' hs e
    obtain ⟨k, c⟩ := c
    rw [Screen.run] at e
    split at e
    · cases e
    · next w1 h1 =>
      have a := call_sets (hs _ (List.mem_cons_self ..)) h1
      have b := ih (fun c hc => hs c (List.mem_cons_of_mem _ hc)) e
      exact ⟨b.1.trans a.1, b.2.trans a.2⟩

/-- The picture saved after a plot and calls that only set attributes. -/
theorem saved_after (w : Screen) (k k' : Nat) (h v : Int) {q : Plotted} {p : Scatter} (e : (w.objs k).plot h v = .ok (q, p))
    {ss : List (Nat × Act)} (hs : ∀ c ∈ ss, c.2.sets) {w' : Screen} (hr : w.run ((k, .plot h v) :: (ss ++ [(k', .save)])) = .ok w') :
    w'.saved = w.saved ++ [some ⟨pointsIn q.figure w.figs ++ [(q.h, q.v)], some (q.hLim, q.vLim), q.xlabel, q.ylabel, q.title⟩] ∧
    w'.figs = ⟨q.figure, some Axes.blank⟩ :: w.figs.filter (fun g => g.num ≠ q.figure) := by
  rw [Screen.run] at hr
  simp only [Screen.call, e] at hr
  rw [run_append] at hr
  split at hr
  · cases hr
  · next w1 h1 =>
    have a := run_sets hs h1
    simp only [Screen.run, Screen.call] at hr
    cases hr
    simp only [a.1, a.2, drawFigs_eq, saveFigs, gcf, Screen.put]
    exact ⟨trivial, trivial⟩

/-- Numbers of open figures are different. -/
theorem call_nodup {w w' : Screen} {k : Nat} {c : Act} (hn : (w.figs.map Fig.num).Nodup) (e : w.call k c = .ok w') :
    (w'.figs.map Fig.num).Nodup := by
  have sub : ∀ (f : Fig → Bool), ((w.figs.filter f).map Fig.num).Nodup := fun f => hn.sublist (List.filter_sublist.map _)
  cases c with
  | setTitle t => cases e; exact hn
  | setLabel i l => rw [(call_sets (w := w) (c := .setLabel i l) trivial e).1]; exact hn
  | setData d => cases e; exact hn
  | plot h v =>
    simp only [Screen.call] at e
    split at e
    · cases e
    · cases e
      simp only [drawFigs_eq]
      rw [List.map_cons, List.nodup_cons]
      refine ⟨?_, sub _⟩
      simp
  | shown l => cases e; exact sub _
  | clear =>
    cases e
    simp only [clearFigs]
    cases hf : w.figs with
    | nil => simp [gcf]
    | cons f fs => rw [hf, List.map_cons, List.nodup_cons] at hn; exact hn.2
  | save =>
    cases e
    simp only [saveFigs]
    cases hf : w.figs with
    | nil => simp [gcf]
    | cons f fs => rw [hf, List.map_cons] at hn; exact hn

theorem run_nodup {cs : List (Nat × Act)} : ∀ {w w' : Screen}, (w.figs.map Fig.num).Nodup → w.run cs = .ok w' → (w'.figs.map Fig.num).Nodup := by
  induction cs with
  | nil => intro w w' hn e; cases e; exact hn
  | cons c cs ih =>
    intro w w' hn e
    obtain ⟨k, c⟩ := c
    rw [Screen.run] at e
    split at e
    · cases e
    · next w1 h1 => exact ih (call_nodup hn h1) e

/-- **C165, exactly.** In all programs with any number of objects: the picture saved after a plot shows the data of the plot, with its limits,
labels and title, and nothing else exactly if nothing is shown in an open figure of the number the plot gets. -/
theorem picture_iff (objs : Nat → Scatter) {cs : List (Nat × Act)} {w w' : Screen} (hw : Screen.run ⟨objs, [], []⟩ cs = .ok w) (k k' : Nat)
    (h v : Int) {q : Plotted} {p : Scatter} (e : (w.objs k).plot h v = .ok (q, p)) {ss : List (Nat × Act)} (hs : ∀ c ∈ ss, c.2.sets)
    (hr : w.run ((k, .plot h v) :: (ss ++ [(k', .save)])) = .ok w') :
    w'.saved = w.saved ++ [some ⟨[(q.h, q.v)], some (q.hLim, q.vLim), q.xlabel, q.ylabel, q.title⟩] ↔
      ∀ f ∈ w.figs, f.num = (w.objs k).figNum + 1 → f.points = [] := by
  have hn : (w.figs.map Fig.num).Nodup := run_nodup (w := ⟨objs, [], []⟩) (by simp) hw
  rw [(saved_after w k k' h v e hs hr).1, ← (plot_figure e).1]
  constructor
  · intro hp f hf hfn
    have : pointsIn q.figure w.figs = [] := by simpa using hp
    rw [← pointsIn_mem hn f hf hfn]
    exact this
  · intro hp
    rw [pointsIn_nil hp]
    rfl

/-- The hypotheses are met after a picture of an empty figure, with a new title between plot and picture. -/
example : ∃ w q p, Screen.run ⟨fun _ => exScatter, [], []⟩ [(0, .save), (1, .shown [3])] = .ok w ∧ (w.objs 0).plot 0 1 = .ok (q, p) ∧
    ∃ w', w.run ((0, .plot 0 1) :: ([(0, .setTitle "later".toList)] ++ [(0, .save)])) = .ok w' := by
  obtain ⟨q, p, h, _⟩ := exScatter_plot 0
  have h' : exScatter.plot 0 1 = .ok (q, p) := h
  refine ⟨_, q, p, rfl, h', ?_⟩
  simp only [List.cons_append, List.nil_append, Screen.run, Screen.call, h']
  exact ⟨_, rfl⟩

/-- Figures of numbers that object `k` will use are empty. -/
def Ahead (k : Nat) (w : Screen) : Prop := ∀ f ∈ w.figs, (w.objs k).figNum < f.num → f.points = []

open Classical in
theorem call_figNum {w w' : Screen} {j : Nat} {c : Act} (e : w.call j c = .ok w') (k : Nat) :
    (w'.objs k).figNum = if (∃ h v, c = .plot h v) ∧ k = j then (w.objs k).figNum + 1 else (w.objs k).figNum := by
  cases c with
  | setTitle t =>
    cases e
    simp only [Screen.put]
    by_cases hk : k = j
    · simp [hk]
    · simp [hk]
  | setLabel i l =>
    simp only [Screen.call] at e
    split at e
    · cases e
    · next p hp =>
      cases e
      simp only [Screen.put]
      by_cases hk : k = j
      · subst hk
        unfold Scatter.setLabel at hp
        split at hp
        · cases hp
        · cases hp
          simp
      · simp [hk]
  | setData d =>
    cases e
    simp only [Screen.put]
    by_cases hk : k = j
    · simp [hk]
    · simp [hk]
  | plot h v =>
    simp only [Screen.call] at e
    split at e
    · cases e
    · next q p hp =>
      cases e
      simp only [Screen.put]
      by_cases hk : k = j
      · subst hk
        simp [(plot_figure hp).2]
      · simp [hk]
  | shown l => cases e; simp
  | clear => cases e; simp
  | save => cases e; simp

theorem call_ahead {w w' : Screen} {j k : Nat} {c : Act} (hc : ∀ h v, c = .plot h v → j = k) (ha : Ahead k w) (e : w.call j c = .ok w') :
    Ahead k w' := by
  intro f hf hlt
  rw [call_figNum e k] at hlt
  have hle : (w.objs k).figNum < f.num := by split at hlt <;> omega
  cases c with
  | setTitle t => cases e; exact ha f hf hle
  | setLabel i l => rw [(call_sets (w := w) (c := .setLabel i l) trivial e).1] at hf; exact ha f hf hle
  | setData d => cases e; exact ha f hf hle
  | plot h v =>
    have hj := hc h v rfl
    subst hj
    rw [if_pos ⟨⟨h, v, rfl⟩, rfl⟩] at hlt
    simp only [Screen.call] at e
    split at e
    · cases e
    · next q p hp =>
      cases e
      simp only [drawFigs_eq] at hf
      rcases List.mem_cons.mp hf with rfl | hf'
      · simp only [(plot_figure hp).1] at hlt
        omega
      · exact ha f (List.mem_filter.mp hf').1 hle
  | shown l => cases e; exact ha f (List.mem_filter.mp hf).1 hle
  | clear =>
    cases e
    simp only [clearFigs] at hf
    refine ha f ?_ hle
    cases hw : w.figs with
    | nil => rw [hw] at hf; simp [gcf] at hf
    | cons g gs => rw [hw] at hf; exact List.mem_cons_of_mem _ hf
  | save =>
    cases e
    simp only [saveFigs] at hf
    rcases List.mem_cons.mp hf with rfl | hf'
    · rfl
    · refine ha f ?_ hle
      cases hw : w.figs with
      | nil => rw [hw] at hf'; simp [gcf] at hf'
      | cons g gs => rw [hw] at hf'; exact List.mem_cons_of_mem _ hf'

theorem run_ahead {cs : List (Nat × Act)} {k : Nat} : ∀ {w w' : Screen}, (∀ c ∈ cs, ∀ h v, c.2 = .plot h v → c.1 = k) → Ahead k w →
    w.run cs = .ok w' → Ahead k w' := by
  induction cs with
  | nil => intro w w' _ ha e; cases e; exact ha
  | cons c cs ih =>
    intro w w' hc ha e
    obtain ⟨j, c⟩ := c
    rw [Screen.run] at e
    split at e
    · cases e
    · next w1 h1 =>
      exact ih (fun c hc' => hc c (List.mem_cons_of_mem _ hc')) (call_ahead (hc (j, c) (List.mem_cons_self ..)) ha h1) e

/-- **C165.** In all programs in which only one object plots, with any other calls in any order: the picture saved after a plot shows
exactly the data of this plot, with its limits and the labels and the title at the time of the plot. -/
theorem picture_own_partial (objs : Nat → Scatter) {cs : List (Nat × Act)} {w w' : Screen} (hw : Screen.run ⟨objs, [], []⟩ cs = .ok w) (k k' : Nat)
    (hc : ∀ c ∈ cs, ∀ h v, c.2 = .plot h v → c.1 = k) (h v : Int) {q : Plotted} {p : Scatter} (e : (w.objs k).plot h v = .ok (q, p))
    {ss : List (Nat × Act)} (hs : ∀ c ∈ ss, c.2.sets) (hr : w.run ((k, .plot h v) :: (ss ++ [(k', .save)])) = .ok w') :
    w'.saved = w.saved ++ [some ⟨[(q.h, q.v)], some (q.hLim, q.vLim), q.xlabel, q.ylabel, q.title⟩] := by
  rw [picture_iff objs hw k k' h v e hs hr]
  intro f hf hfn
  exact run_ahead (w := ⟨objs, [], []⟩) hc (fun f hf => by cases hf) hw f hf (by omega)

/-- **C165, several objects.** The first plots of two new objects go to the same figure: the picture saved after the second plot shows the data
of both, with the limits, labels and title of the second. -/
theorem picture_two_fails (objs : Nat → Scatter) (a b : Nat) (hab : a ≠ b) (hf : (objs a).figNum = (objs b).figNum) (h v h' v' : Int)
    {qa qb : Plotted} {pa pb : Scatter} (ea : (objs a).plot h v = .ok (qa, pa)) (eb : (objs b).plot h' v' = .ok (qb, pb)) :
    ∃ w, Screen.run ⟨objs, [], []⟩ [(a, .plot h v), (b, .plot h' v'), (b, .save)] = .ok w ∧
      w.saved = [some ⟨[(qa.h, qa.v), (qb.h, qb.v)], some (qb.hLim, qb.vLim), qb.xlabel, qb.ylabel, qb.title⟩] := by
  have hq : qa.figure = qb.figure := by rw [(plot_figure ea).1, (plot_figure eb).1, hf]
  have hba : b ≠ a := hab.symm
  simp only [Screen.run, Screen.call, ea, Screen.put, if_neg hba, eb]
  refine ⟨_, rfl, ?_⟩
  simp [drawFigs_eq, saveFigs, gcf, pointsIn, hq, Fig.points]

example : ∃ qa qb pa pb, ((fun _ => exScatter : Nat → Scatter) 0).plot 0 1 = .ok (qa, pa) ∧ ((fun _ => exScatter : Nat → Scatter) 1).plot 0 1 = .ok (qb, pb) := by
  obtain ⟨q, p, h, _⟩ := exScatter_plot 0
  exact ⟨q, q, p, p, h, h⟩

/-- **C165, each plot saved.** In programs that save every plot at once, with any number of objects, each picture shows exactly the data of
its plot. -/
theorem picture_each (objs : Nat → Scatter) (bs : List (Nat × Int × Int)) {w : Screen}
    (hr : Screen.run ⟨objs, [], []⟩ (bs.flatMap fun b => [(b.1, .plot b.2.1 b.2.2), (b.1, .save)]) = .ok w) :
    List.Forall₂ (fun b pic => ∃ n q p, ({ objs b.1 with figNum := n } : Scatter).plot b.2.1 b.2.2 = .ok (q, p) ∧
      pic = some ⟨[(q.h, q.v)], some (q.hLim, q.vLim), q.xlabel, q.ylabel, q.title⟩) bs w.saved := by
  suffices hgen : ∀ (bs : List (Nat × Int × Int)) (w0 w : Screen), (∀ f ∈ w0.figs, f.points = []) →
      (∀ k, ∃ n, w0.objs k = { objs k with figNum := n }) →
      w0.run (bs.flatMap fun b => [(b.1, .plot b.2.1 b.2.2), (b.1, .save)]) = .ok w → ∃ l, w.saved = w0.saved ++ l ∧
      List.Forall₂ (fun b pic => ∃ n q p, ({ objs b.1 with figNum := n } : Scatter).plot b.2.1 b.2.2 = .ok (q, p) ∧
        pic = some ⟨[(q.h, q.v)], some (q.hLim, q.vLim), q.xlabel, q.ylabel, q.title⟩) bs l by
    obtain ⟨l, h1, h2⟩ := hgen bs _ w (fun f hf => by cases hf) (fun k => ⟨(objs k).figNum, rfl⟩) hr
    rw [h1]
    exact h2
  intro bs
  induction bs with
  | nil => intro w0 w _ _ e; cases e; exact ⟨[], by simp, .nil⟩
  | cons b bs ih =>
    intro w0 w hb ho e
    obtain ⟨k, h, v⟩ := b
    rw [List.flatMap_cons, run_append] at e
    split at e
    · cases e
    · next w1 h1 =>
      cases hp : (w0.objs k).plot h v with
      | error er => simp [Screen.run, Screen.call, hp] at h1
      | ok r =>
        obtain ⟨q, p⟩ := r
        have hs := saved_after w0 k k h v hp (ss := []) (by simp) h1
        rw [pointsIn_nil (fun f hf _ => hb f hf)] at hs
        obtain ⟨l, h2, h3⟩ := ih w1 w (by
          rw [hs.2]
          intro f hf
          rcases List.mem_cons.mp hf with rfl | hf'
          · rfl
          · exact hb f (List.mem_filter.mp hf').1) (by
          intro j
          have hw1 : w1.objs = fun i => if i = k then p else w0.objs i := by
            simp only [Screen.run, Screen.call, hp] at h1
            cases h1
            rfl
          rw [hw1]
          by_cases hj : j = k
          · obtain ⟨n, hn⟩ := ho k
            refine ⟨n + 1, ?_⟩
            subst hj
            simp [(plot_figure hp).2, hn]
          · simpa [hj] using ho j) e
        obtain ⟨n, hn⟩ := ho k
        rw [hn] at hp
        refine ⟨_ :: l, ?_, .cons ⟨n, q, p, hp, rfl⟩ h3⟩
        rw [h2, hs.1]
        simp

example : ∃ w, Screen.run ⟨fun _ => exScatter, [], []⟩ ([(0, 0, 1), (1, 0, 1)].flatMap fun b => [(b.1, .plot b.2.1 b.2.2), (b.1, .save)]) = .ok w := by
  obtain ⟨q, p, h, _⟩ := exScatter_plot 0
  have h' : exScatter.plot 0 1 = .ok (q, p) := h
  simp only [List.flatMap_cons, List.flatMap_nil, List.append_nil, List.cons_append, List.nil_append, Screen.run, Screen.call, h', Screen.put,
    if_neg (by decide : ¬(1 = 0))]
  exact ⟨_, rfl⟩

/-- **C165, again.** A picture saved directly after another one is empty. -/
theorem save_twice (w : Screen) (k k' : Nat) {w' : Screen} (hr : w.run [(k, .save), (k', .save)] = .ok w') :
    ∃ pic, w'.saved = w.saved ++ [pic, some ⟨[], none, [], [], []⟩] := by
  simp only [Screen.run, Screen.call, saveFigs] at hr
  cases hr
  refine ⟨(gcf w.figs).1.axes, ?_⟩
  simp [gcf, Axes.blank]

example : ∃ w', Screen.run ⟨fun _ => exScatter, [], []⟩ [(0, .save), (1, .save)] = .ok w' := ⟨_, rfl⟩

/-- **C165, clearing.** `clear_plots` after a plot closes the figure of this plot and no other. -/
theorem clear_last (w : Screen) (k k' : Nat) (h v : Int) {q : Plotted} {p : Scatter} (e : (w.objs k).plot h v = .ok (q, p)) {w' : Screen}
    (hr : w.run [(k, .plot h v), (k', .clear)] = .ok w') :
    w'.figs = w.figs.filter (fun f => f.num ≠ (w.objs k).figNum + 1) ∧ w'.saved = w.saved := by
  simp only [Screen.run, Screen.call, e] at hr
  cases hr
  rw [← (plot_figure e).1]
  simp only [clearFigs, drawFigs_eq, gcf, Screen.put]
  exact ⟨trivial, trivial⟩

/-- **C165, clearing twice needed.** After two plots of an object the first one stays open. -/
theorem clear_two_fails (objs : Nat → Scatter) (k k' : Nat) (h v h' v' : Int) {q q' : Plotted} {p p' : Scatter}
    (e : (objs k).plot h v = .ok (q, p)) (e' : p.plot h' v' = .ok (q', p')) :
    ∃ w, Screen.run ⟨objs, [], []⟩ [(k, .plot h v), (k, .plot h' v'), (k', .clear)] = .ok w ∧
      w.figs = [⟨(objs k).figNum + 1, some ⟨[(q.h, q.v)], some (q.hLim, q.vLim), q.xlabel, q.ylabel, q.title⟩⟩] := by
  have hq : q.figure ≠ q'.figure := by
    rw [(plot_figure e).1, (plot_figure e').1, (plot_figure e).2]
    simp
  rw [← (plot_figure e).1]
  simp only [Screen.run, Screen.call, e, Screen.put, if_true, e']
  refine ⟨_, rfl, ?_⟩
  simp [drawFigs_eq, clearFigs, gcf, pointsIn, hq]

example : ∃ q p q' p', exScatter.plot 0 1 = .ok (q, p) ∧ p.plot 0 1 = .ok (q', p') := by
  obtain ⟨q, p, h, _⟩ := exScatter_plot 0
  have h' : exScatter.plot 0 1 = .ok (q, p) := h
  obtain ⟨q', p', h2, _⟩ := exScatter_plot 1
  refine ⟨q, p, q', p', h', ?_⟩
  rw [(plot_figure h').2]
  exact h2

end Verif.Plot
