import Verif.Plot.ScatterContour
import Verif.Plot.PropsProjection

/-!
# Property C125: particles shown by `scatter_contour`
-/

namespace Verif.Plot

/-- The sets of points that are shown. -/
def dots : List Call → List (List (ℝ × ℝ))
  | [] => []
  | .scatter p :: l => p :: dots l
  | _ :: l => dots l

/-- The lines on the axes after these calls, the last one first. -/
def linesLeft : List (List (ℝ × ℝ)) → List Call → List (List (ℝ × ℝ))
  | a, [] => a
  | a, .plot p :: l => linesLeft (p :: a) l
  | a, .removeLine :: l => linesLeft a.tail l
  | a, _ :: l => linesLeft a l

/-- The scale of the horizontal axis after these calls; `none` if it was not set. -/
def xScaleFrom : Option Bool → List Call → Option Bool
  | a, [] => a
  | _, .xscale b :: l => xScaleFrom (some b) l
  | a, _ :: l => xScaleFrom a l

/-- The scale of the vertical axis after these calls. -/
def yScaleFrom : Option Bool → List Call → Option Bool
  | a, [] => a
  | _, .yscale b :: l => yScaleFrom (some b) l
  | a, _ :: l => yScaleFrom a l

/-- The axes that a plot type names: whether each is logarithmic. -/
def Named (plotType : String) (x y : Bool) : Prop :=
  (plotType, x, y) ∈ [("linear", false, false), ("semi-logx", true, false), ("semi-logy", false, true), ("log-log", true, true)]

/-- **C125, for `scatter`, `line` and `scatter-line`.** All particles are shown once, in their order, and both axes have the scale that the
plot type names. -/
theorem scatter_shows (outline : Outline) (flag plotType : String) (xs ys : List ℝ) (hl : xs.length = ys.length) (divs : Int) (levels : LevelsArg)
    (bx bl : Bool) (hf : (flag, bx, bl) ∈ [("scatter", true, false), ("line", false, true), ("scatter-line", true, true)])
    (lx ly : Bool) (ht : Named plotType lx ly) :
    ∃ calls, scatterContour outline flag plotType (.array xs) ys divs levels = .ok calls ∧
      dots calls = (if bx then [xs.zip ys] else []) ∧ linesLeft [] calls = (if bl then [xs.zip ys] else []) ∧
      xScaleFrom none calls = some lx ∧ yScaleFrom none calls = some ly := by
  have hs : stacked (.array xs) ys = .ok (xs.zip ys) := by simp [stacked, hl]
  simp only [List.mem_cons, List.not_mem_nil, or_false, Prod.mk.injEq] at hf
  simp only [Named, List.mem_cons, List.not_mem_nil, or_false, Prod.mk.injEq] at ht
  have key : ∃ calls, scatterContour outline flag plotType (.array xs) ys divs levels = .ok calls ∧
      calls = (if bx then [.plot (xs.zip ys), .scatter (xs.zip ys), .removeLine] else []) ++ (if bl then [.plot (xs.zip ys)] else []) ++
        scaleCalls plotType := by
    obtain ⟨rfl, rfl, rfl⟩ | ⟨rfl, rfl, rfl⟩ | ⟨rfl, rfl, rfl⟩ := hf
    all_goals
      refine ⟨_, ?_, rfl⟩
      unfold scatterContour contourPart plotted
      rw [hs]
      first
        | rw [show endsLine "scatter" = false by decide +kernel]
        | rw [show endsLine "line" = true by decide +kernel]
        | rw [show endsLine "scatter-line" = true by decide +kernel]
      first
        | rw [show startsScatter "scatter" = true by decide +kernel]
        | rw [show startsScatter "line" = false by decide +kernel]
        | rw [show startsScatter "scatter-line" = true by decide +kernel]
      rfl
  obtain ⟨calls, h1, h2⟩ := key
  refine ⟨calls, h1, ?_⟩
  subst h2
  obtain ⟨rfl, rfl, rfl⟩ | ⟨rfl, rfl, rfl⟩ | ⟨rfl, rfl, rfl⟩ | ⟨rfl, rfl, rfl⟩ := ht <;> cases bx <;> cases bl <;>
    simp [scaleCalls, dots, linesLeft, xScaleFrom, yScaleFrom]

example (outline : Outline) : ∃ calls, scatterContour outline "scatter-line" "semi-logy" (.array [1, 2]) [3, 5] 10 (.count 10) = .ok calls ∧
    dots calls = [[(1, 3), (2, 5)]] ∧ linesLeft [] calls = [[(1, 3), (2, 5)]] ∧ xScaleFrom none calls = some false ∧
    yScaleFrom none calls = some true :=
  scatter_shows outline "scatter-line" "semi-logy" [1, 2] [3, 5] rfl 10 (.count 10) true true (by simp) false true (by simp [Named])

/-! ### Contours -/

theorem increasing_iff : ∀ l : List ℝ, increasing l = true ↔ l.Pairwise (· < ·)
  | [] => by simp [increasing]
  | [a] => by simp [increasing]
  | a :: b :: l => by
    rw [increasing, Bool.and_eq_true, decide_eq_true_iff, increasing_iff (b :: l)]
    constructor
    · rintro ⟨h, hp⟩
      refine List.Pairwise.cons (fun x hx => ?_) hp
      rcases List.mem_cons.1 hx with rfl | hx
      · exact h
      · exact h.trans (List.rel_of_pairwise_cons hp hx)
    · intro hp
      exact ⟨List.rel_of_pairwise_cons hp (by simp), hp.tail⟩

theorem filled_iff (l : List ℝ) : (∃ c, filled l = .ok c) ↔ 2 ≤ l.length ∧ l.Pairwise (· < ·) := by
  rw [← increasing_iff]
  unfold filled
  split_ifs with h1 h2
  · simp; omega
  · simp [h2]
  · simp only [Bool.not_eq_false] at h2
    simp only [Except.ok.injEq, exists_eq', true_iff]
    exact ⟨by omega, h2⟩

theorem filled_refuses (l : List ℝ) (h : ¬ (2 ≤ l.length ∧ l.Pairwise (· < ·))) : filled l = .error .valueError := by
  cases hf : filled l with
  | ok c => exact absurd ((filled_iff l).1 ⟨c, hf⟩) h
  | error e =>
    unfold filled at hf
    split_ifs at hf <;> exact hf.symm ▸ rfl

theorem steps_pairwise (a d : ℝ) (hd : 0 < d) (n : Nat) : ((List.range n).map fun k : Nat => a + k * d).Pairwise (· < ·) := by
  rw [List.pairwise_map]
  refine List.pairwise_lt_range.imp fun {i j} hij => ?_
  have : (i : ℝ) < j := by exact_mod_cast hij
  have := mul_lt_mul_of_pos_right this hd
  linarith

/-- Equal steps between two numbers: the list of `n` is acceptable iff there are two of them and the second number is larger. -/
theorem linspace_iff (a b : ℝ) (n : Int) :
    (∃ l c, linspace a b n = .ok l ∧ l ≠ [] ∧ filled l = .ok c) ↔ 2 ≤ n ∧ a < b := by
  have hf : ∀ l, (∃ c, filled l = .ok c) ↔ 2 ≤ l.length ∧ l.Pairwise (· < ·) := filled_iff
  constructor
  · rintro ⟨l, c, hl, hne, hc⟩
    have := (hf l).1 ⟨c, hc⟩
    unfold linspace at hl
    by_cases h0 : n < 0
    · rw [if_pos h0] at hl; cases hl
    rw [if_neg h0] at hl
    by_cases h1 : n = 1
    · rw [if_pos h1] at hl
      simp only [Except.ok.injEq] at hl
      subst hl
      simp at this
    rw [if_neg h1] at hl
    simp only [Except.ok.injEq] at hl
    have hn : 2 ≤ n := by
      rw [← hl] at this
      have := this.1
      simp at this
      omega
    refine ⟨hn, ?_⟩
    obtain ⟨m, rfl⟩ : ∃ m : ℕ, n = m + 2 := ⟨(n - 2).toNat, by omega⟩
    have hp := this.2
    rw [← hl, show (((m : ℤ) + 2).toNat) = m + 2 by omega, List.range_succ_eq_map, List.range_succ_eq_map] at hp
    have := List.rel_of_pairwise_cons hp (a' := a + ((0 + 1 : ℕ) : ℝ) * ((b - a) / (((m : ℤ) + 2 : ℤ) - 1))) (by simp)
    simp only [Nat.cast_zero, zero_mul, add_zero, zero_add, Nat.cast_one, one_mul] at this
    have h2 : 0 < (b - a) / ((((m : ℤ) + 2 : ℤ) : ℝ) - 1) := by linarith
    have h3 : (0 : ℝ) < (((m : ℤ) + 2 : ℤ) : ℝ) - 1 := by
      push_cast
      have : (0 : ℝ) ≤ m := Nat.cast_nonneg m
      linarith
    have := (div_pos_iff_of_pos_right h3).1 h2
    linarith
  · rintro ⟨hn, hab⟩
    have h3 : (0 : ℝ) < (n : ℝ) - 1 := by
      have : (2 : ℝ) ≤ n := by exact_mod_cast hn
      linarith
    have hl : linspace a b n = .ok ((List.range n.toNat).map fun k : Nat => a + k * ((b - a) / (n - 1))) := by
      unfold linspace
      rw [if_neg (by omega), if_neg (by omega)]
    obtain ⟨c, hc⟩ := (hf _).2 ⟨by simp; omega, steps_pairwise a ((b - a) / (n - 1)) (div_pos (by linarith) h3) n.toNat⟩
    refine ⟨_, c, hl, ?_, hc⟩
    have : n.toNat ≠ 0 := by omega
    simpa using this

/-- Some cell of `n` times `n` has more than `T` particles: the ranges of both coordinates are cut into `n` equal strips. -/
def Crowded (pts : List (ℝ × ℝ)) (n T : Nat) : Prop :=
  ∃ i j, i < n ∧ j < n ∧ ∃ cell : ℝ × ℝ → Bool,
    (∀ q, cell q = true ↔ InStrip (histRange (pts.map fun q => q.1)).1 (histRange (pts.map fun q => q.1)).2 n i q.1 ∧
      InStrip (histRange (pts.map fun q => q.2)).1 (histRange (pts.map fun q => q.2)).2 n j q.2) ∧ T < pts.countP cell

theorem lt_foldl_max (T : Nat) : ∀ (l : List Nat) (a : Nat), T < l.foldl max a ↔ T < a ∨ ∃ c ∈ l, T < c
  | [], a => by simp
  | b :: l, a => by
    rw [List.foldl_cons, lt_foldl_max T l, lt_max_iff]
    simp [or_assoc]

theorem histMax_iff (pts : List (ℝ × ℝ)) (n : Nat) (hn : 0 < n) (T : Nat) {h} (hh : histogram2d pts n = .ok h) :
    T < histMax h.1 ↔ Crowded pts n T := by
  classical
  have hx := (range_spec (pts.map fun q => q.1)).2
  have hy := (range_spec (pts.map fun q => q.2)).2
  unfold histogram2d at hh
  rw [if_neg (by omega)] at hh
  simp only [Except.ok.injEq] at hh
  have e : ∀ i j, i < n → j < n → ∀ cell : ℝ × ℝ → Bool, (∀ q, cell q = true ↔ InStrip (histRange (pts.map fun q => q.1)).1 (histRange (pts.map fun q => q.1)).2 n i q.1 ∧
      InStrip (histRange (pts.map fun q => q.2)).1 (histRange (pts.map fun q => q.2)).2 n j q.2) →
      (pts.countP fun q => decide (edgesUpTo (edgesOf (pts.map fun q => q.1) n) q.1 = i + 1) && decide (edgesUpTo (edgesOf (pts.map fun q => q.2) n) q.2 = j + 1)) =
        pts.countP cell := by
    intro i j hi hj cell hc
    refine List.countP_congr fun q hq => ?_
    rw [hc, inStrip_iff, inStrip_iff, Bool.and_eq_true, decide_eq_true_iff, decide_eq_true_iff]
    rw [edgesUpTo_iff _ n hn q.1 (hx q.1 (List.mem_map.2 ⟨q, hq, rfl⟩)).2 i hi, edgesUpTo_iff _ n hn q.2 (hy q.2 (List.mem_map.2 ⟨q, hq, rfl⟩)).2 j hj]
  rw [← hh]
  unfold histMax
  rw [lt_foldl_max]
  simp only [Int.toNat_natCast, Nat.not_lt_zero, false_or, List.mem_flatten, List.mem_map, List.mem_range]
  constructor
  · rintro ⟨c, ⟨row, ⟨i, hi, rfl⟩, hc⟩, hT⟩
    obtain ⟨j, hj, rfl⟩ := List.mem_map.1 hc
    have hj := List.mem_range.1 hj
    refine ⟨i, j, hi, hj, fun q => decide (_ ∧ _), fun q => decide_eq_true_iff, ?_⟩
    rw [← e i j hi hj _ fun q => decide_eq_true_iff]
    exact hT
  · rintro ⟨i, j, hi, hj, cell, hc, hT⟩
    refine ⟨_, ⟨_, ⟨i, hi, rfl⟩, List.mem_map.2 ⟨j, List.mem_range.2 hj, rfl⟩⟩, ?_⟩
    rw [e i j hi hj cell hc]
    exact hT

/-- The levels that can be drawn. -/
def Drawable (pts : List (ℝ × ℝ)) (divs T : Nat) : LevelsArg → Prop
  | .count n => 2 ≤ n ∧ Crowded pts divs T
  | .values l => 2 ≤ l.length ∧ l.Pairwise (· < ·)

theorem lowest_ok {l : List ℝ} (h : l ≠ []) : ∃ x, lowest l = .ok x := by
  cases l with
  | nil => exact absurd rfl h
  | cons x l => exact ⟨_, rfl⟩

theorem histContour_iff (outline : Outline) (T : Nat) (xs ys : List ℝ) (divs : Int) (levels : LevelsArg) :
    (∃ r, histContour outline T xs ys divs levels = .ok r) ↔
      xs.length = ys.length ∧ 2 ≤ divs ∧ Drawable (xs.zip ys) divs.toNat T levels := by
  unfold histContour
  by_cases hl : xs.length = ys.length
  swap
  · simp [hl]
  rw [if_neg (by simpa using hl)]
  by_cases hd : 2 ≤ divs
  swap
  · have : ¬ ∃ r, (match histogram2d (xs.zip ys) divs with
      | Except.error e => (Except.error e : Except PyErr (List Call × Option (ℝ × ℝ → Bool)))
      | .ok h => do
        let ls ← levelsOf T (histMax h.1) levels
        let low ← lowest ls
        if divs < 2 then .error .typeError
        else
          let c ← filled ls
          .ok (.contour low :: c, outline h low)) = .ok r := by
      rintro ⟨r, hr⟩
      cases hh : histogram2d (xs.zip ys) divs with
      | error e => rw [hh] at hr; cases hr
      | ok h =>
        rw [hh] at hr
        simp only at hr
        cases h1 : levelsOf T (histMax h.1) levels with
        | error e => rw [h1] at hr; cases hr
        | ok ls =>
          rw [h1] at hr
          cases h2 : lowest ls with
          | error e => simp only [bind, Except.bind, h2] at hr; cases hr
          | ok low =>
            simp only [bind, Except.bind, h2] at hr
            rw [if_pos (by omega)] at hr
            cases hr
    constructor
    · intro h; exact absurd h this
    · rintro ⟨_, h, _⟩; exact absurd h hd
  obtain ⟨n, rfl⟩ : ∃ n : ℕ, divs = n := ⟨divs.toNat, by omega⟩
  have hn : 0 < n := by omega
  obtain ⟨h, hh⟩ : ∃ h, histogram2d (xs.zip ys) n = .ok h := by
    unfold histogram2d
    rw [if_neg (by omega)]
    exact ⟨_, rfl⟩
  have step : (∃ r, (match histogram2d (xs.zip ys) n with
      | Except.error e => (Except.error e : Except PyErr (List Call × Option (ℝ × ℝ → Bool)))
      | .ok h => do
        let ls ← levelsOf T (histMax h.1) levels
        let low ← lowest ls
        if (n : ℤ) < 2 then .error .typeError
        else
          let c ← filled ls
          .ok (.contour low :: c, outline h low)) = .ok r) ↔
      ∃ l c, levelsOf T (histMax h.1) levels = .ok l ∧ l ≠ [] ∧ filled l = .ok c := by
    rw [hh]
    simp only
    cases h1 : levelsOf T (histMax h.1) levels with
    | error e => simp [bind, Except.bind]
    | ok ls =>
      cases ls with
      | nil => simp [bind, Except.bind, lowest]
      | cons x l =>
        simp only [bind, Except.bind, lowest]
        rw [if_neg (by omega)]
        cases h2 : filled (x :: l) with
        | error e =>
          simp only [reduceCtorEq, exists_false, Except.ok.injEq, false_iff, not_exists, not_and]
          rintro l' c rfl - h3
          rw [h2] at h3
          cases h3
        | ok c => exact ⟨fun _ => ⟨_, c, rfl, by simp, h2⟩, fun _ => ⟨_, rfl⟩⟩
  refine Iff.trans step ?_
  simp only [hl, hd, true_and, Int.toNat_natCast]
  cases levels with
  | count k =>
    change (∃ l c, linspace T (histMax h.1) k = .ok l ∧ l ≠ [] ∧ filled l = .ok c) ↔ _
    rw [linspace_iff]
    simp only [Drawable, ← histMax_iff _ n hn T hh]
    exact_mod_cast Iff.rfl
  | values l =>
    simp only [Drawable, ← filled_iff]
    constructor
    · rintro ⟨l', c, h1, h2, h3⟩
      match l, h1 with
      | [], h1 => simp only [levelsOf, Except.ok.injEq] at h1; exact absurd h1.symm h2
      | [x], h1 => cases h1
      | a :: b :: l, h1 => simp only [levelsOf, Except.ok.injEq] at h1; exact ⟨c, h1 ▸ h3⟩
    · rintro ⟨c, hc⟩
      match l, hc with
      | [], hc => have := (filled_iff []).1 ⟨c, hc⟩; simp at this
      | [x], hc => have := (filled_iff [x]).1 ⟨c, hc⟩; simp at this
      | a :: b :: l, hc => exact ⟨_, c, rfl, by simp, hc⟩

/-- The threshold of a contour plot and of a combined plot. -/
def Threshold (flag : String) (T : Nat) : Prop := flag = "contour" ∧ T = 1 ∨ flag = "combo" ∧ T = 8

theorem scatterContour_contour (outline : Outline) (plotType : String) (xs ys : List ℝ) (divs : Int) (levels : LevelsArg) :
    scatterContour outline "contour" plotType (.array xs) ys divs levels =
      (match histContour outline 1 xs ys divs levels with
        | Except.error e => Except.error e
        | Except.ok r => Except.ok r.1) := by
  unfold scatterContour contourPart plotted
  rw [show endsLine "contour" = false by decide +kernel, show startsScatter "contour" = false by decide +kernel,
    if_pos (by simp), if_neg (by decide : ¬ "contour" = "combo")]
  simp only
  cases histContour outline 1 xs ys divs levels with
  | error e => rfl
  | ok r => simp [bind, Except.bind]

theorem scatterContour_combo (outline : Outline) (plotType : String) (xs ys : List ℝ) (divs : Int) (levels : LevelsArg) (hl : xs.length = ys.length) :
    scatterContour outline "combo" plotType (.array xs) ys divs levels =
      (match histContour outline 8 xs ys divs levels with
        | Except.error e => Except.error e
        | Except.ok r =>
          let pts := match r.2 with
            | none => xs.zip ys
            | some f => (xs.zip ys).filter fun p => !f p
          Except.ok (r.1 ++ [.plot pts, .scatter pts, .removeLine])) := by
  have hs : stacked (.array xs) ys = .ok (xs.zip ys) := by simp [stacked, hl]
  unfold scatterContour contourPart plotted
  rw [hs, show endsLine "combo" = false by decide +kernel, show startsScatter "combo" = false by decide +kernel,
    if_pos (by simp), if_pos rfl]
  simp only
  cases histContour outline 8 xs ys divs levels with
  | error e => rfl
  | ok r =>
    obtain ⟨c, o⟩ := r
    cases o <;> simp [bind, Except.bind]

/-- **C125, when a histogram is contoured.** Exactly if the arrays have the same length, there are two divisions, and either two or more
levels are asked for and some cell has more particles than the threshold (1, for combined plots 8), or the given levels increase. -/
theorem contour_iff (outline : Outline) (flag plotType : String) (T : Nat) (hT : Threshold flag T) (xs ys : List ℝ) (divs : Int) (levels : LevelsArg) :
    (∃ calls, scatterContour outline flag plotType (.array xs) ys divs levels = .ok calls) ↔
      xs.length = ys.length ∧ 2 ≤ divs ∧ Drawable (xs.zip ys) divs.toNat T levels := by
  rw [← histContour_iff outline]
  obtain ⟨rfl, rfl⟩ | ⟨rfl, rfl⟩ := hT
  · rw [scatterContour_contour]
    cases histContour outline 1 xs ys divs levels <;> simp
  · by_cases hl : xs.length = ys.length
    · rw [scatterContour_combo _ _ _ _ _ _ hl]
      cases histContour outline 8 xs ys divs levels <;> simp
    · have h1 : histContour outline 8 xs ys divs levels = .error .valueError := by
        unfold histContour
        rw [if_pos hl]
      have h2 : scatterContour outline "combo" plotType (.array xs) ys divs levels = .error .valueError := by
        unfold scatterContour contourPart
        rw [if_pos (by simp), if_pos rfl]
        simp only [h1]
        rfl
      rw [h1, h2]
      simp

/-- **C125, false for few particles.** No contours are drawn, and an exception is raised, if there are no more particles than the
threshold and the levels are given as a number. -/
theorem contour_sparse_fails (outline : Outline) (flag plotType : String) (T : Nat) (hT : Threshold flag T) (xs ys : List ℝ) (divs n : Int)
    (h : xs.length ≤ T) : ∃ e, scatterContour outline flag plotType (.array xs) ys divs (.count n) = .error e := by
  cases hc : scatterContour outline flag plotType (.array xs) ys divs (.count n) with
  | error e => exact ⟨e, rfl⟩
  | ok c =>
    obtain ⟨_, _, _, i, j, _, _, cell, _, hlt⟩ := (contour_iff outline flag plotType T hT xs ys divs (.count n)).1 ⟨c, hc⟩
    have h1 := List.countP_le_length (p := cell) (l := xs.zip ys)
    rw [List.length_zip] at h1
    omega

/-- **C125, false for axis ranges.** Contours over two axis ranges always raise an exception. -/
theorem contour_axes_fails (outline : Outline) (flag plotType : String) (hf : flag = "contour" ∨ flag = "combo") (xs ys data : List ℝ) (divs : Int)
    (levels : LevelsArg) : ∃ e, scatterContour outline flag plotType (.axes xs ys) data divs levels = .error e := by
  have h1 : ∃ e, axesContour xs ys data levels = .error e := by
    unfold axesContour
    cases axesLevels data levels with
    | error e => exact ⟨e, rfl⟩
    | ok l =>
      cases xs with
      | nil => exact ⟨_, rfl⟩
      | cons x xs =>
        cases ys with
        | nil => exact ⟨_, rfl⟩
        | cons y ys =>
          simp only
          split_ifs <;> exact ⟨_, rfl⟩
  obtain ⟨e, he⟩ := h1
  refine ⟨e, ?_⟩
  unfold scatterContour contourPart
  rw [if_pos hf]
  simp only [he]
  rfl

theorem histContour_calls {outline : Outline} {T : Nat} {xs ys : List ℝ} {divs : Int} {levels : LevelsArg} {r}
    (h : histContour outline T xs ys divs levels = .ok r) :
    ∃ g ls low, histogram2d (xs.zip ys) divs = .ok g ∧ levelsOf T (histMax g.1) levels = .ok ls ∧ low ∈ ls ∧ (∀ x ∈ ls, low ≤ x) ∧
      r.1 = [.contour low, .contourf ls] ∧ r.2 = outline g low := by
  unfold histContour at h
  by_cases hl : xs.length ≠ ys.length
  · rw [if_pos hl] at h; cases h
  rw [if_neg hl] at h
  cases hh : histogram2d (xs.zip ys) divs with
  | error e => rw [hh] at h; cases h
  | ok g =>
    rw [hh] at h
    simp only at h
    cases h1 : levelsOf T (histMax g.1) levels with
    | error e => rw [h1] at h; cases h
    | ok ls =>
      rw [h1] at h
      cases ls with
      | nil => simp only [bind, Except.bind, lowest] at h; cases h
      | cons x l =>
        simp only [bind, Except.bind, lowest] at h
        split_ifs at h
        unfold filled at h
        split_ifs at h
        simp only [Except.ok.injEq] at h
        have m1 := minOf_mem x l
        have m2 := minOf_le x l
        subst h
        exact ⟨g, x :: l, minOf x l, rfl, h1, m1, m2, rfl, rfl⟩

/-- **C125, what a contour plot shows.** Nothing but contours: no particles, no lines, and, whatever the plot type is, no scale is set. -/
theorem contour_shows (outline : Outline) (plotType : String) (xs ys : List ℝ) (divs : Int) (levels : LevelsArg) {calls}
    (h : scatterContour outline "contour" plotType (.array xs) ys divs levels = .ok calls) :
    ∃ low ls, calls = [.contour low, .contourf ls] ∧ low ∈ ls ∧ (∀ x ∈ ls, low ≤ x) ∧
      xScaleFrom none calls = none ∧ yScaleFrom none calls = none := by
  rw [scatterContour_contour] at h
  cases hh : histContour outline 1 xs ys divs levels with
  | error e => rw [hh] at h; cases h
  | ok r =>
    rw [hh] at h
    simp only [Except.ok.injEq] at h
    obtain ⟨g, ls, low, -, -, h1, h2, h3, -⟩ := histContour_calls hh
    subst h
    rw [h3]
    exact ⟨low, ls, rfl, h1, h2, rfl, rfl⟩

/-- **C125, for `combo`.** The particles shown as points are exactly those that are not inside of the outline at the lowest level, in
their order, and no line is left. The scale named by the plot type is not set. -/
theorem combo_shows (outline : Outline) (plotType : String) (xs ys : List ℝ) (divs : Int) (levels : LevelsArg) {calls}
    (h : scatterContour outline "combo" plotType (.array xs) ys divs levels = .ok calls) :
    ∃ g low ls, histogram2d (xs.zip ys) divs = .ok g ∧ low ∈ ls ∧ (∀ x ∈ ls, low ≤ x) ∧ .contourf ls ∈ calls ∧
      (∀ inside : ℝ × ℝ → Bool, (∀ p, inside p = true ↔ ∃ f, outline g low = some f ∧ f p = true) →
        dots calls = [(xs.zip ys).filter fun p => !inside p]) ∧
      linesLeft [] calls = [] ∧ xScaleFrom none calls = none ∧ yScaleFrom none calls = none := by
  have hl : xs.length = ys.length := ((contour_iff outline "combo" plotType 8 (Or.inr ⟨rfl, rfl⟩) xs ys divs levels).1 ⟨_, h⟩).1
  rw [scatterContour_combo _ _ _ _ _ _ hl] at h
  cases hh : histContour outline 8 xs ys divs levels with
  | error e => rw [hh] at h; cases h
  | ok r =>
    rw [hh] at h
    simp only [Except.ok.injEq] at h
    obtain ⟨g, ls, low, hg, -, h1, h2, h3, h4⟩ := histContour_calls hh
    subst h
    rw [h3, h4]
    refine ⟨g, low, ls, hg, h1, h2, by simp, fun inside hi => ?_, rfl, rfl, rfl⟩
    simp only [List.cons_append, List.nil_append, dots, List.cons.injEq, and_true]
    cases ho : outline g low with
    | none =>
      have : ∀ p, inside p = false := fun p => by
        rw [← Bool.not_eq_true, hi, ho]
        simp
      simp [this]
    | some f =>
      have : inside = f := funext fun p => by
        rw [Bool.eq_iff_iff, hi, ho]
        simp
      rw [this]

/-- Nine particles at one place and a far one: some cell has more than eight. -/
noncomputable def exCloud : List ℝ := [0, 0, 0, 0, 0, 0, 0, 0, 0, 4]

theorem exCloud_crowded : Crowded (exCloud.zip exCloud) 2 8 := by
  classical
  refine ⟨0, 0, by norm_num, by norm_num, fun q => decide (_ ∧ _), fun q => decide_eq_true_iff, ?_⟩
  have e : (exCloud.zip exCloud).map (fun q => q.1) = exCloud := by simp [exCloud]
  have e' : (exCloud.zip exCloud).map (fun q => q.2) = exCloud := by simp [exCloud]
  have r : histRange exCloud = (0, 4) := by norm_num [exCloud, histRange, minOf, maxOf]
  rw [e, e', r]
  norm_num [exCloud, InStrip, List.countP_cons]

theorem exCloud_drawn (outline : Outline) : ∃ calls, scatterContour outline "combo" "linear" (.array exCloud) exCloud 2 (.count 5) = .ok calls :=
  (contour_iff outline "combo" "linear" 8 (Or.inr ⟨rfl, rfl⟩) exCloud exCloud 2 (.count 5)).2
    ⟨rfl, by norm_num, by norm_num, exCloud_crowded⟩

example : ∃ calls, scatterContour (fun _ _ => some fun p => decide (p.1 = 0)) "combo" "linear" (.array exCloud) exCloud 2 (.count 5) = .ok calls ∧
    dots calls = [[(4, 4)]] := by
  obtain ⟨calls, h⟩ := exCloud_drawn (fun _ _ => some fun p => decide (p.1 = 0))
  obtain ⟨g, low, ls, -, -, -, -, hd, -⟩ := combo_shows _ _ _ _ _ _ h
  refine ⟨calls, h, ?_⟩
  rw [hd (fun p => decide (p.1 = 0)) fun p => by simp]
  norm_num [exCloud]

example (outline : Outline) : ∃ calls, scatterContour outline "contour" "log-log" (.array exCloud) exCloud 2 (.values [1, 3]) = .ok calls ∧
    xScaleFrom none calls = none := by
  obtain ⟨calls, h⟩ := (contour_iff outline "contour" "log-log" 1 (Or.inl ⟨rfl, rfl⟩) exCloud exCloud 2 (.values [1, 3])).2
    ⟨rfl, by norm_num, by simp [Drawable]⟩
  obtain ⟨_, _, _, _, _, hx, _⟩ := contour_shows _ _ _ _ _ _ h
  exact ⟨calls, h, hx⟩

example (outline : Outline) : ∃ e, scatterContour outline "combo" "linear" (.array [1, 1, 1]) [2, 2, 2] 10 (.count 10) = .error e :=
  contour_sparse_fails outline "combo" "linear" 8 (Or.inr ⟨rfl, rfl⟩) _ _ 10 10 (by simp)

example (outline : Outline) : ∃ e, scatterContour outline "contour" "linear" (.axes [0, 1] [0, 1]) [1, 2, 3, 4] 10 (.count 10) = .error e :=
  contour_axes_fails outline "contour" "linear" (Or.inl rfl) _ _ _ _ _

end Verif.Plot
