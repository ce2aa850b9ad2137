import Verif.Plot.PropsBeamProfile
import Verif.Plot.PropsScatter
import Verif.Plot.PropsScatterContour
import Verif.Plot.PropsSymbol

/-! # Properties C101, C105, C124, C125: tables of letters, first labels, and the exceptions of the plots -/

namespace Verif.Plot

/-! ## C101: the letters -/

/-- The Greek letters of SDDS symbols and their names in TeX. -/
def greekTable : List (Char × String) :=
  [('a', "alpha"), ('b', "beta"), ('g', "gamma"), ('d', "delta"), ('e', "varepsilon"), ('z', "zeta"), ('c', "eta"), ('G', "Gamma"),
   ('D', "Delta"), ('Q', "Theta"), ('q', "theta"), ('i', "iota"), ('k', "kappa"), ('l', "lambda"), ('m', "mu"), ('n', "nu"), ('x', "xi"),
   ('L', "Lambda"), ('X', "Xi"), ('P', "Pi"), ('p', "pi"), ('r', "rho"), ('s', "sigma"), ('t', "tau"), ('S', "Sigma"), ('U', "Upsilon"),
   ('F', "Phi"), ('u', "upsilon"), ('f', "phi"), ('v', "chi"), ('y', "psi"), ('w', "omega"), ('Y', "Psi"), ('W', "Omega")]

theorem greek_get (c : Char) : Mapping.greek.get c = (greekTable.lookup c).map String.toList := by
  by_cases h : c ∈ greekTable.map Prod.fst
  · have key : ∀ c ∈ greekTable.map Prod.fst, Mapping.greek.get c = (greekTable.lookup c).map String.toList := by decide +kernel
    exact key c h
  · have h1 : greekTable.lookup c = none := List.lookup_eq_none_iff.2 fun p hp => by
      have : c ≠ p.1 := fun he => h (he ▸ List.mem_map_of_mem hp)
      simpa using this
    have h2 : Mapping.greek.get c = none := by
      have key : ∀ p ∈ greekNames, p.1 ∈ greekTable.map Prod.fst := by decide +kernel
      exact List.lookup_eq_none_iff.2 fun p hp => by
        have : c ≠ p.1 := fun he => h (he ▸ key p hp)
        simpa using this
    rw [h1, h2]; rfl

/-- **C101.** A Greek letter gives the control word with its name; the only special letter is the
sign for plus or minus. All other letters are refused. -/
theorem letters_exact (c : Char) (hc : c ≠ '$') :
    formatSymbol ['$', 'g', c] true = (match greekTable.lookup c with
      | some n => .ok ("$\\".toList ++ n.toList ++ "$".toList)
      | none => .error .typeError) ∧
    formatSymbol ['$', 's', c] true = (if c = 'a' then .ok "$\\pm$".toList else .error .typeError) := by
  constructor
  · have h := greek_get c
    have : formatSymbol ['$', 'g', c] true = (match Mapping.greek.get c with
      | some n => .ok ("$\\".toList ++ n ++ "$".toList)
      | none => .error .typeError) := by
      show (match formatLoop [c] false .greek ['$'] with
        | .error e => Except.error e
        | .ok out => .ok (out ++ ['$'])) = _
      unfold formatLoop
      rw [if_neg hc, if_neg (by decide)]
      cases Mapping.greek.get c with
      | none => rfl
      | some n => rfl
    rw [this, h]
    cases greekTable.lookup c <;> rfl
  · show (match formatLoop [c] false .special ['$'] with
      | .error e => Except.error e
      | .ok out => .ok (out ++ ['$'])) = _
    unfold formatLoop
    rw [if_neg hc, if_neg (by decide)]
    by_cases ha : c = 'a'
    · subst ha; decide
    · have : Mapping.special.get c = none := by
        refine List.lookup_eq_none_iff.2 fun p hp => ?_
        have hp : p.1 = 'a' := by
          have key : ∀ p ∈ specialNames, p.1 = 'a' := by decide
          exact key p hp
        rw [hp]
        simpa using ha
      rw [this, if_neg ha]

example : formatSymbol ['$', 'g', 'v'] true = .ok "$\\chi$".toList := (letters_exact 'v' (by decide)).1
example : formatSymbol ['$', 'g', 'A'] true = .error .typeError := (letters_exact 'A' (by decide)).1
example : formatSymbol ['$', 's', 'a'] true = .ok "$\\pm$".toList := (letters_exact 'a' (by decide)).2

/-! ## C105: the first labels -/

/-- **C105.** The labels of a new plot, by number from the start or from the end. -/
theorem label_first {n : Int} {data : List (List ℝ)} {p : Scatter} (h : newScatter n data = .ok p) :
    p.getLabel 0 = .ok "x [m]".toList ∧ p.getLabel 1 = .ok "px/p0".toList ∧ p.getLabel 2 = .ok "y [m]".toList ∧
    p.getLabel 3 = .ok "py/p0".toList ∧ p.getLabel 4 = .ok "s [m]".toList ∧ p.getLabel 5 = .ok "dp/p0".toList ∧
    (∀ i : Nat, i < 6 → p.getLabel ((i : Int) - 6) = p.getLabel i) ∧ ∀ i : Int, 6 ≤ i ∨ i < -6 → p.getLabel i = .error .indexError := by
  have hp : p.labels = firstLabels := by
    unfold newScatter at h
    by_cases hn : n > 1
    · rw [if_pos hn] at h; cases h; rfl
    · rw [if_neg hn] at h; cases h
  have hl : p.labels.length = 6 := by rw [hp]; rfl
  have key : ∀ i : Int, p.getLabel i = match arrayIndex 6 i with
      | .error e => .error e
      | .ok k => .ok (firstLabels.getD k []) := by
    intro i
    unfold Scatter.getLabel
    rw [hl, hp]
    cases arrayIndex 6 i <;> rfl
  refine ⟨?_, ?_, ?_, ?_, ?_, ?_, ?_, ?_⟩
  · rw [key]; rfl
  · rw [key]; rfl
  · rw [key]; rfl
  · rw [key]; rfl
  · rw [key]; rfl
  · rw [key]; rfl
  · intro i hi
    rw [key, key]
    have h1 : arrayIndex 6 (i : Int) = .ok i := by unfold arrayIndex; rw [if_pos (by omega)]; simp
    have h2 : arrayIndex 6 ((i : Int) - 6) = .ok i := by
      unfold arrayIndex
      rw [if_neg (by omega), if_pos (by omega)]
      simp
    rw [h1, h2]
  · intro i hi
    rw [key]
    have : arrayIndex 6 i = .error .indexError := by
      unfold arrayIndex
      rw [if_neg (by omega), if_neg (by omega)]
    rw [this]

example : ∃ p, newScatter 2 [] = .ok p ∧ p.getLabel (-1) = .ok "dp/p0".toList := ⟨_, rfl, rfl⟩

/-! ## C124: exceptions of `beamline_profile` -/

/-- **C124.** Without the column `s` ValueError is raised. -/
theorem beamline_profile_no_s (o : Open) (page : Int) (quantities : Option (List String)) {t : Table} (ht : pageAt o.pages page = some t)
    (hs : t.nums.lookup "s" = none) : beamlineProfile o page quantities = .error .valueError := by
  unfold beamlineProfile profileOf Table.field
  simp only [ht, hs]
  rfl

theorem mapM_first_error {α β : Type} (f : α → Except PyErr β) (e : PyErr) : ∀ l : List α, (∀ a ∈ l, (∃ b, f a = .ok b) ∨ f a = .error e) →
    (∃ a ∈ l, f a = .error e) → l.mapM f = .error e
  | [], _, h => by obtain ⟨a, ha, _⟩ := h; cases ha
  | a :: l, hall, h => by
    rw [List.mapM_cons]
    rcases hall a (by simp) with ⟨b, hb⟩ | he
    · rw [hb]
      have : ∃ a ∈ l, f a = .error e := by
        obtain ⟨c, hc, hce⟩ := h
        rcases List.mem_cons.1 hc with rfl | hc
        · rw [hb] at hce; cases hce
        · exact ⟨c, hc, hce⟩
      rw [show (Except.ok b >>= fun b => do let r ← l.mapM f; pure (b :: r)) = (do let r ← l.mapM f; pure (b :: r) : Except PyErr (List β)) from rfl,
        mapM_first_error f e l (fun x hx => hall x (by simp [hx])) this]
      rfl
    · rw [he]; rfl

/-- A quantity that is not a column of the page raises ValueError, when the profile can be drawn and the
texts of the quantities can be formatted. -/
theorem beamline_profile_no_column (o : Open) (page : Int) (quantities : Option (List String)) {t : Table}
    (ht : pageAt o.pages page = some t) {p : Profile} (hp : profileOf t = .ok p)
    (hl : ∀ q ∈ quantitiesOf quantities, ∃ l, labelOf o q = .ok l)
    {q : String} (hq : q ∈ quantitiesOf quantities) (hn : t.nums.lookup q = none) :
    beamlineProfile o page quantities = .error .valueError := by
  have hs : ∃ s, t.nums.lookup "s" = some s := by
    cases h : t.nums.lookup "s" with
    | some s => exact ⟨s, rfl⟩
    | none =>
      unfold profileOf Table.field at hp
      rw [h] at hp
      cases hp
  obtain ⟨s, hs⟩ := hs
  have hc : ∀ q ∈ quantitiesOf quantities, (∃ c, curveOf o t q = .ok c) ∨ curveOf o t q = .error .valueError := by
    intro q hq
    obtain ⟨l, hl⟩ := hl q hq
    unfold curveOf Table.field
    rw [hs, hl]
    cases t.nums.lookup q with
    | none => exact .inr rfl
    | some ys => exact .inl ⟨_, rfl⟩
  have hm : (quantitiesOf quantities).mapM (curveOf o t) = .error .valueError := by
    refine mapM_first_error _ _ _ hc ⟨q, hq, ?_⟩
    unfold curveOf Table.field
    rw [hs, hn]
    rfl
  unfold beamlineProfile
  simp only [ht, hp, hm, bind, Except.bind]

example : beamlineProfile ⟨[⟨[], none⟩], []⟩ 0 none = .error .valueError :=
  beamline_profile_no_s _ _ _ (t := ⟨[], none⟩) rfl rfl

/-! ## C125: exceptions of `scatter_contour` -/

/-- **C125.** Arrays of different lengths raise ValueError for all plots of points and lines. -/
theorem scatter_lengths (outline : Outline) (flag plotType : String) (hf : flag ∈ ["scatter", "line", "scatter-line"]) (xs ys : List ℝ)
    (hl : xs.length ≠ ys.length) (divs : Int) (levels : LevelsArg) :
    scatterContour outline flag plotType (.array xs) ys divs levels = .error .valueError := by
  have h1 : ∀ f ∈ ["scatter", "line", "scatter-line"], ¬ (f = "contour" ∨ f = "combo") ∧ f ≠ "combo" ∧ (startsScatter f || endsLine f) = true := by
    decide +kernel
  obtain ⟨h2, h3, h4⟩ := h1 flag hf
  unfold scatterContour contourPart plotted
  simp only [if_neg h2, if_neg h3, if_pos h4, bind, Except.bind]
  unfold stacked
  simp only [if_pos hl]

/-- A list of two axis ranges raises TypeError for these plots. -/
theorem scatter_axes_fails (outline : Outline) (flag plotType : String) (hf : flag ∈ ["scatter", "line", "scatter-line"]) (xs ys data : List ℝ)
    (divs : Int) (levels : LevelsArg) : scatterContour outline flag plotType (.axes xs ys) data divs levels = .error .typeError := by
  have h1 : ∀ f ∈ ["scatter", "line", "scatter-line"], ¬ (f = "contour" ∨ f = "combo") ∧ f ≠ "combo" ∧ (startsScatter f || endsLine f) = true := by
    decide +kernel
  obtain ⟨h2, h3, h4⟩ := h1 flag hf
  unfold scatterContour contourPart plotted
  simp only [if_neg h2, if_neg h3, if_pos h4, bind, Except.bind]
  rfl

/-- A single level raises TypeError, whatever the particles. -/
theorem contour_one_level (outline : Outline) (flag plotType : String) (hf : flag = "contour" ∨ flag = "combo") (xs ys : List ℝ)
    (hl : xs.length = ys.length) (divs : Int) (hd : 1 ≤ divs) (v : ℝ) :
    scatterContour outline flag plotType (.array xs) ys divs (.values [v]) = .error .typeError := by
  have h : ∀ T : Nat, histContour outline T xs ys divs (.values [v]) = .error .typeError := by
    intro T
    unfold histContour histogram2d
    rw [if_neg (by omega), if_neg (by omega)]
    rfl
  unfold scatterContour contourPart
  rw [if_pos hf]
  simp only [h]
  rfl

/-- The levels are accepted for axis ranges with these data. -/
def LevelsOk (data : List ℝ) : LevelsArg → Prop
  | .count n => data ≠ [] ∧ 0 ≤ n
  | .values l => l.length ≠ 1

theorem contour_axes (outline : Outline) (flag plotType : String) (hf : flag = "contour" ∨ flag = "combo") (xs ys data : List ℝ) (divs : Int)
    (levels : LevelsArg) {e : PyErr} (h : axesContour xs ys data levels = .error e) :
    scatterContour outline flag plotType (.axes xs ys) data divs levels = .error e := by
  unfold scatterContour contourPart
  rw [if_pos hf]
  simp only [h]
  rfl

theorem minmax_eq (x : ℝ) (l : List ℝ) : maxOf x l - minOf x l = 0 ↔ ∀ a ∈ x :: l, ∀ b ∈ x :: l, a = b := by
  constructor
  · intro h a ha b hb
    have h1 := minOf_le x l a ha
    have h2 := le_maxOf x l a ha
    have h3 := minOf_le x l b hb
    have h4 := le_maxOf x l b hb
    linarith
  · intro h
    rw [h _ (maxOf_mem x l) _ (minOf_mem x l), sub_self]

/-- The exception for axis ranges when the levels are accepted: ValueError for an empty range, ZeroDivisionError if
one of the ranges is constant, otherwise TypeError. -/
theorem contour_axes_exact (outline : Outline) (flag plotType : String) (hf : flag = "contour" ∨ flag = "combo") (xs ys data : List ℝ) (divs : Int)
    (levels : LevelsArg) (hv : LevelsOk data levels) :
    (xs = [] ∨ ys = [] → scatterContour outline flag plotType (.axes xs ys) data divs levels = .error .valueError) ∧
    (xs ≠ [] → ys ≠ [] → (∀ a ∈ xs, ∀ b ∈ xs, a = b) ∨ (∀ a ∈ ys, ∀ b ∈ ys, a = b) →
      scatterContour outline flag plotType (.axes xs ys) data divs levels = .error .zeroDivisionError) ∧
    ((∃ a ∈ xs, ∃ b ∈ xs, a ≠ b) → (∃ a ∈ ys, ∃ b ∈ ys, a ≠ b) →
      scatterContour outline flag plotType (.axes xs ys) data divs levels = .error .typeError) := by
  have hlev : ∃ l, axesLevels data levels = .ok l := by
    cases levels with
    | count n =>
      obtain ⟨h1, h2⟩ := hv
      cases data with
      | nil => exact absurd rfl h1
      | cons d ds =>
        unfold axesLevels linspace
        simp only [if_neg (not_lt.2 h2)]
        by_cases hn : n = 1
        · simp only [if_pos hn]; exact ⟨_, rfl⟩
        · simp only [if_neg hn]; exact ⟨_, rfl⟩
    | values l =>
      match l, hv with
      | [], _ => cases data <;> exact ⟨[], rfl⟩
      | [v], h => exact absurd rfl h
      | a :: b :: l, _ => cases data <;> exact ⟨a :: b :: l, rfl⟩
  obtain ⟨l, hlev⟩ := hlev
  refine ⟨?_, ?_, ?_⟩
  · intro h
    refine contour_axes outline flag plotType hf xs ys data divs levels ?_
    unfold axesContour
    rw [hlev]
    rcases h with rfl | rfl
    · rfl
    · cases xs <;> rfl
  · intro hx hy h
    refine contour_axes outline flag plotType hf xs ys data divs levels ?_
    unfold axesContour
    rw [hlev]
    obtain ⟨x, xs, rfl⟩ := List.exists_cons_of_ne_nil hx
    obtain ⟨y, ys, rfl⟩ := List.exists_cons_of_ne_nil hy
    simp only
    by_cases h0 : maxOf y ys - minOf y ys = 0
    · rw [if_pos h0]
    · rw [if_neg h0, if_pos]
      rcases h with h | h
      · rw [(minmax_eq x xs).2 h, zero_div]
      · exact absurd ((minmax_eq y ys).2 h) h0
  · intro hx hy
    refine contour_axes outline flag plotType hf xs ys data divs levels ?_
    unfold axesContour
    rw [hlev]
    obtain ⟨a, ha, b, hb, hab⟩ := hx
    obtain ⟨c, hc, d, hd, hcd⟩ := hy
    obtain ⟨x, xs, rfl⟩ := List.exists_cons_of_ne_nil (List.ne_nil_of_mem ha)
    obtain ⟨y, ys, rfl⟩ := List.exists_cons_of_ne_nil (List.ne_nil_of_mem hc)
    simp only
    have h1 : maxOf x xs - minOf x xs ≠ 0 := fun h => hab ((minmax_eq x xs).1 h a ha b hb)
    have h2 : maxOf y ys - minOf y ys ≠ 0 := fun h => hcd ((minmax_eq y ys).1 h c hc d hd)
    rw [if_neg h2, if_neg (div_ne_zero h1 h2)]

/-- The exception when the levels are refused. -/
theorem contour_axes_levels (outline : Outline) (flag plotType : String) (hf : flag = "contour" ∨ flag = "combo") (xs ys data : List ℝ) (divs : Int)
    (levels : LevelsArg) (hv : ¬ LevelsOk data levels) :
    scatterContour outline flag plotType (.axes xs ys) data divs levels =
      .error (match levels with
        | .count _ => .valueError
        | .values _ => .typeError) := by
  refine contour_axes outline flag plotType hf xs ys data divs levels ?_
  unfold axesContour
  cases levels with
  | count n =>
    cases data with
    | nil => rfl
    | cons d ds =>
      have hn : n < 0 := by
        by_contra hn
        exact hv ⟨by simp, by omega⟩
      unfold axesLevels linspace
      simp only [if_pos hn]
  | values l =>
    match l with
    | [] => exact absurd (show ([] : List ℝ).length ≠ 1 by simp) hv
    | [v] => cases data <;> rfl
    | a :: b :: l => exact absurd (show (a :: b :: l).length ≠ 1 by simp) hv

example (outline : Outline) : scatterContour outline "line" "linear" (.array [1, 2]) [3] 10 (.count 10) = .error .valueError :=
  scatter_lengths outline _ _ (by simp) _ _ (by simp) _ _

example (outline : Outline) : scatterContour outline "contour" "linear" (.axes [0, 1] [0, 1]) [1, 2, 3, 4] 10 (.count 10) = .error .typeError :=
  (contour_axes_exact outline _ _ (.inl rfl) _ _ _ _ (.count 10) ⟨by simp, by decide⟩).2.2 ⟨0, by simp, 1, by simp, by norm_num⟩
    ⟨0, by simp, 1, by simp, by norm_num⟩

example (outline : Outline) : scatterContour outline "contour" "linear" (.axes [0, 1] [0, 1]) [] 10 (.count 10) = .error .valueError :=
  contour_axes_levels outline _ _ (.inl rfl) _ _ [] _ (.count 10) fun h => h.1 rfl

example (outline : Outline) : scatterContour outline "combo" "linear" (.array [1, 2]) [3, 4] 10 (.values [5]) = .error .typeError :=
  contour_one_level outline _ _ (.inr rfl) [1, 2] [3, 4] rfl 10 (by decide) _

end Verif.Plot
