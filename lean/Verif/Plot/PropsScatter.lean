import Verif.Plot.Scatter
import Verif.Plot.PropsHistogram

/-!
# Properties C66, C105 and C106: limits, labels and contour levels
-/

namespace Verif.Plot

/-- **C66.** The limits of an axis are symmetric about zero, contain every particle, and are the smallest such limits. -/
theorem limits_contain (l : List ℝ) (hl : l ≠ []) :
    ∃ b, limits l = .ok (-b, b) ∧ (∀ x ∈ l, -b ≤ x ∧ x ≤ b) ∧ ∀ b', (∀ x ∈ l, -b' ≤ x ∧ x ≤ b') → b ≤ b' := by
  cases l with
  | nil => exact absurd rfl hl
  | cons x l =>
    have h1 := minOf_le x l
    have h2 := le_maxOf x l
    have he : limits (x :: l) = if -minOf x l > maxOf x l then .ok (minOf x l, |minOf x l|) else .ok (-maxOf x l, maxOf x l) := rfl
    by_cases h : -minOf x l > maxOf x l
    · refine ⟨-minOf x l, ?_, fun y hy => ⟨?_, ?_⟩, fun b' hb => ?_⟩
      · have hneg : minOf x l < 0 := by
          have := le_trans (h1 x (by simp)) (h2 x (by simp))
          linarith
        rw [he, if_pos h, abs_of_neg hneg, neg_neg]
      · have := h1 y hy; linarith
      · have := h2 y hy; linarith
      · have := (hb _ (minOf_mem x l)).1; linarith
    · refine ⟨maxOf x l, by rw [he, if_neg h], fun y hy => ⟨?_, ?_⟩, fun b' hb => ?_⟩
      · have := h1 y hy; linarith
      · exact h2 y hy
      · exact (hb _ (maxOf_mem x l)).2

/-- **C66, plots.** A plot of two of six coordinates shows exactly the particles, inside its limits, with the labels of the coordinates; the
numbers of the figures go up by one. -/
theorem plot_contains (p : Scatter) (i j : Nat) (hd : p.data.length = 6) (hlab : p.labels.length = 6) (hi : i < 6) (hj : j < 6)
    (hne : ∀ r ∈ p.data, r ≠ []) :
    ∃ q p', p.plot i j = .ok (q, p') ∧ q.h = p.data.getD i [] ∧ q.v = p.data.getD j [] ∧
      (∀ x ∈ q.h, q.hLim.1 ≤ x ∧ x ≤ q.hLim.2) ∧ (∀ x ∈ q.v, q.vLim.1 ≤ x ∧ x ≤ q.vLim.2) ∧
      q.xlabel = p.labels.getD i [] ∧ q.ylabel = p.labels.getD j [] ∧ q.title = p.title ∧ q.figure = p.figNum + 1 ∧
      p' = { p with figNum := p.figNum + 1 } := by
  have hidx : ∀ k : Nat, k < 6 → arrayIndex 6 (k : Int) = .ok k := by
    intro k hk
    unfold arrayIndex
    rw [if_pos (by omega)]
    simp
  have hrow : ∀ k : Nat, k < 6 → p.data.getD k [] ≠ [] := by
    intro k hk
    rw [List.getD_eq_getElem?_getD, List.getElem?_eq_getElem (by omega)]
    exact hne _ (List.getElem_mem _)
  obtain ⟨b, h1, h2, _⟩ := limits_contain _ (hrow i hi)
  obtain ⟨c, h3, h4, _⟩ := limits_contain _ (hrow j hj)
  unfold Scatter.plot Scatter.getLabel
  rw [hd, hlab, hidx i hi, hidx j hj]
  simp only [h1, h3]
  exact ⟨_, _, rfl, rfl, rfl, h2, h4, rfl, rfl, rfl, rfl, rfl⟩

/-- **C66, refusal.** A phase space of fewer than two particles cannot be plotted. -/
theorem scatter_refuses (n : Int) (data : List (List ℝ)) :
    (n ≤ 1 → newScatter n data = .error .exception) ∧
    (2 ≤ n → ∃ p, newScatter n data = .ok p ∧ p.data = data ∧ p.labels.length = 6 ∧ p.figNum = 0) := by
  refine ⟨fun h => if_neg (by omega), fun h => ⟨_, if_pos (by omega), rfl, rfl, rfl⟩⟩

/-! ## Labels -/

theorem stored_short (label : List Char) (h5 : label.length ≤ 5) (h0 : label.getLast? ≠ some '\x00') : stored label = label := by
  unfold stored
  rw [List.take_of_length_le h5]
  cases hr : label.reverse with
  | nil =>
    rw [List.reverse_eq_nil_iff] at hr
    rw [hr]
    rfl
  | cons c l =>
    have hc : c ≠ '\x00' := by
      intro he
      apply h0
      rw [List.getLast?_eq_head?_reverse, hr, he]
      rfl
    rw [List.dropWhile_cons_of_neg (by simpa using hc), ← hr, List.reverse_reverse]

theorem stored_length (label : List Char) : (stored label).length ≤ 5 := by
  unfold stored
  rw [List.length_reverse]
  refine le_trans (List.dropWhile_sublist _).length_le ?_
  rw [List.length_reverse, List.length_take]
  omega

theorem set_get (p : Scatter) (i : Nat) (hlab : p.labels.length = 6) (hi : i < 6) (label : List Char) :
    ∃ q, p.setLabel i label = .ok q ∧ q.getLabel i = .ok (stored label) ∧ ∀ j : Nat, j ≠ i → q.getLabel j = p.getLabel j := by
  have hidx : arrayIndex 6 (i : Int) = .ok i := by
    unfold arrayIndex
    rw [if_pos (by omega)]
    simp
  unfold Scatter.setLabel
  rw [hlab, hidx]
  refine ⟨_, rfl, ?_, fun j hj => ?_⟩
  · unfold Scatter.getLabel
    simp only [List.length_set, hlab, hidx]
    rw [List.getD_eq_getElem?_getD, List.getElem?_set_self (by omega)]
    rfl
  · unfold Scatter.getLabel
    simp only [List.length_set, hlab]
    cases hj' : arrayIndex 6 (j : Int) with
    | error e => rfl
    | ok k =>
      have hk : k = j := by
        unfold arrayIndex at hj'
        split_ifs at hj' with h1 h2
        · simp only [Except.ok.injEq] at hj'; omega
        · omega
      subst hk
      simp only [List.getD_eq_getElem?_getD, List.getElem?_set_ne (Ne.symm hj)]

/-- **C105.** A label of at most five characters is read back, and the other labels stay. -/
theorem label_partial (p : Scatter) (i : Nat) (hlab : p.labels.length = 6) (hi : i < 6) (label : List Char) (h5 : label.length ≤ 5)
    (h0 : label.getLast? ≠ some '\x00') :
    ∃ q, p.setLabel i label = .ok q ∧ q.getLabel i = .ok label ∧ ∀ j : Nat, j ≠ i → q.getLabel j = p.getLabel j := by
  have := set_get p i hlab hi label
  rwa [stored_short label h5 h0] at this

/-- **C105 is false.** No label of more than five characters is read back: it is cut off, since the array of labels has strings of five
characters. -/
theorem label_fails (p : Scatter) (i : Nat) (hlab : p.labels.length = 6) (hi : i < 6) (label : List Char) (h5 : 5 < label.length) :
    ∃ q s, p.setLabel i label = .ok q ∧ q.getLabel i = .ok s ∧ s ≠ label ∧ s.length ≤ 5 ∧ s <+: label := by
  obtain ⟨q, h1, h2, _⟩ := set_get p i hlab hi label
  refine ⟨q, _, h1, h2, fun he => ?_, stored_length label, ?_⟩
  · have := stored_length label
    rw [he] at this
    omega
  · unfold stored
    obtain ⟨t, ht⟩ := List.dropWhile_suffix (l := (label.take 5).reverse) (fun c => decide (c = '\x00'))
    have : ((label.take 5).reverse.dropWhile fun c => decide (c = '\x00')).reverse <+: label.take 5 := by
      refine ⟨t.reverse, ?_⟩
      rw [← List.reverse_append, ht, List.reverse_reverse]
    exact this.trans (List.take_prefix _ _)

/-! ## Contour levels -/

theorem rint_error (x : ℝ) : |(rint x : ℝ) - x| ≤ 1 / 2 := by
  have h1 := Int.floor_le x
  have h2 := Int.lt_floor_add_one x
  unfold rint
  split_ifs with h3 h4 h5
  · rw [abs_le]; constructor <;> linarith
  · push_cast; rw [abs_le]; constructor <;> linarith
  · push Not at h3 h4; rw [abs_le]; constructor <;> linarith
  · push Not at h3 h4; push_cast; rw [abs_le]; constructor <;> linarith

theorem rint_small (x : ℝ) (h : |x| < 1 / 2) : rint x = 0 := by
  rw [abs_lt] at h
  unfold rint
  rcases lt_or_ge x 0 with hx | hx
  · have hf : ⌊x⌋ = -1 := by
      rw [Int.floor_eq_iff]
      push_cast
      constructor <;> linarith
    rw [hf]
    push_cast
    rw [if_neg (by linarith), if_pos (by linarith)]
  · have hf : ⌊x⌋ = 0 := by
      rw [Int.floor_eq_iff]
      push_cast
      constructor <;> linarith
    rw [hf]
    push_cast
    rw [if_pos (by linarith)]

theorem around_error (x : ℝ) : |around3 x - x| ≤ 1 / 2000 := by
  have h := rint_error (x * 1000)
  unfold around3
  rw [abs_le] at h ⊢
  constructor <;> linarith [h.1, h.2]

theorem range_cases (x : ℝ) (l : List ℝ) (m : ℝ) (hm : 0 < m) (hv : minOf x l < maxOf x l ∨ minOf x l < 0) :
    ∃ b a, levelRange x l m = (-b, b) ∧ (∀ y ∈ x :: l, |y| ≤ a) ∧ (∃ y ∈ x :: l, |y| = a) ∧ (|b - m * a| ≤ 1 / 2000) := by
  have h1 := minOf_le x l
  have h2 := le_maxOf x l
  have hr : levelRange x l m = if |m * minOf x l| < m * maxOf x l then (-around3 (m * maxOf x l), around3 (m * maxOf x l))
      else (around3 (m * minOf x l), |around3 (m * minOf x l)|) := rfl
  have habs : |m * minOf x l| = m * |minOf x l| := by rw [abs_mul, abs_of_pos hm]
  by_cases h : |m * minOf x l| < m * maxOf x l
  · have h' : |minOf x l| < maxOf x l := by rw [habs] at h; exact lt_of_mul_lt_mul_left h hm.le
    rw [abs_lt] at h'
    refine ⟨around3 (m * maxOf x l), maxOf x l, by rw [hr, if_pos h], fun y hy => ?_, ⟨maxOf x l, maxOf_mem x l, ?_⟩, around_error _⟩
    · rw [abs_le]
      exact ⟨by linarith [h1 y hy, h'.1], h2 y hy⟩
    · exact abs_of_pos (by linarith [h'.1, h'.2])
  · have h' : maxOf x l ≤ |minOf x l| := by
      rw [habs] at h
      push Not at h
      exact le_of_mul_le_mul_left h hm
    have hneg : minOf x l < 0 := by
      rcases hv with hv | hv
      · by_contra hn
        push Not at hn
        rw [abs_of_nonneg hn] at h'
        linarith
      · exact hv
    rw [abs_of_neg hneg] at h'
    have herr := around_error (m * minOf x l)
    have hmn : m * minOf x l < 0 := mul_neg_of_pos_of_neg hm hneg
    have hle : around3 (m * minOf x l) ≤ 0 := by
      unfold around3
      have : rint (m * minOf x l * 1000) ≤ 0 := by
        have e := rint_error (m * minOf x l * 1000)
        rw [abs_le] at e
        have : ((rint (m * minOf x l * 1000) : ℤ) : ℝ) < 1 := by linarith [e.2]
        have : rint (m * minOf x l * 1000) < 1 := by exact_mod_cast this
        omega
      have : ((rint (m * minOf x l * 1000) : ℤ) : ℝ) ≤ 0 := by exact_mod_cast this
      linarith
    refine ⟨-around3 (m * minOf x l), -minOf x l, ?_, fun y hy => ?_, ⟨minOf x l, minOf_mem x l, abs_of_neg hneg⟩, ?_⟩
    · rw [hr, if_neg h, abs_of_nonpos hle, neg_neg]
    · rw [abs_le]
      exact ⟨by linarith [h1 y hy], by linarith [h2 y hy]⟩
    · rw [show -around3 (m * minOf x l) - m * -minOf x l = -(around3 (m * minOf x l) - m * minOf x l) by ring, abs_neg]
      exact herr

/-- **C106, levels.** The levels of a field that is not constant (or has a negative value) are equidistant, their number is that asked for,
they start at minus the bound, and the bound itself is left out. -/
theorem levels_spaced (x : ℝ) (l : List ℝ) (n : Int) (hn : 1 ≤ n) (m : ℝ) (hm : 0 < m) (hv : minOf x l < maxOf x l ∨ minOf x l < 0) :
    ∃ b a, contourLevels (x :: l) n m = .ok ((List.range n.toNat).map fun i : Nat => -b + i * (2 * b / n)) ∧
      (∀ y ∈ x :: l, |y| ≤ a) ∧ (∃ y ∈ x :: l, |y| = a) ∧ |b - m * a| ≤ 1 / 2000 := by
  obtain ⟨b, a, h1, h2, h3, h4⟩ := range_cases x l m hm hv
  refine ⟨b, a, ?_, h2, h3, h4⟩
  unfold contourLevels
  simp only [h1]
  congr 1
  refine List.map_congr_left fun i _ => ?_
  ring

/-- **C106, cover.** With the default arguments the levels reach from below the field to above it, for fields with a value of at least 0.011
in magnitude that are not constant or have a negative value. -/
theorem levels_cover_partial (x : ℝ) (l : List ℝ) (hv : minOf x l < maxOf x l ∨ minOf x l < 0) (hbig : ∃ y ∈ x :: l, 11 / 1000 ≤ |y|) :
    ∃ lev lo hi, contourLevels (x :: l) 40 (11 / 10) = .ok lev ∧ lo ∈ lev ∧ hi ∈ lev ∧ ∀ y ∈ x :: l, lo ≤ y ∧ y ≤ hi := by
  obtain ⟨b, a, h1, h2, _, h4⟩ := levels_spaced x l 40 (by norm_num) (11 / 10) (by norm_num) hv
  obtain ⟨z, hz, hz'⟩ := hbig
  have ha : 11 / 1000 ≤ a := le_trans hz' (h2 z hz)
  rw [abs_le] at h4
  refine ⟨_, -b, -b + 39 * (2 * b / 40), h1, ?_, ?_, fun y hy => ?_⟩
  · exact List.mem_map.2 ⟨0, by simp, by simp⟩
  · exact List.mem_map.2 ⟨39, by simp, by norm_num⟩
  · have := h2 y hy
    rw [abs_le] at this
    constructor
    · linarith [h4.1, this.1]
    · linarith [h4.1, this.2]

/-- **C106 is false for small fields.** If no value is as large as 1/2200 in magnitude, all levels of the default call are zero. -/
theorem levels_small_fails (x : ℝ) (l : List ℝ) (h : ∀ y ∈ x :: l, |y| < 1 / 2200) (n : Int) :
    contourLevels (x :: l) n (11 / 10) = .ok (List.replicate n.toNat 0) := by
  have hz : ∀ y ∈ x :: l, around3 (11 / 10 * y) = 0 := by
    intro y hy
    unfold around3
    rw [rint_small]
    · simp
    · rw [abs_mul, abs_mul, abs_of_pos (by norm_num : (0 : ℝ) < 11 / 10), abs_of_pos (by norm_num : (0 : ℝ) < 1000)]
      have := h y hy
      linarith
  have hr : levelRange x l (11 / 10) = (0, 0) := by
    have : levelRange x l (11 / 10) = if |11 / 10 * minOf x l| < 11 / 10 * maxOf x l then (-around3 (11 / 10 * maxOf x l), around3 (11 / 10 * maxOf x l))
      else (around3 (11 / 10 * minOf x l), |around3 (11 / 10 * minOf x l)|) := rfl
    rw [this, hz _ (minOf_mem x l), hz _ (maxOf_mem x l)]
    simp
  unfold contourLevels
  simp only [hr]
  congr 1
  rw [List.eq_replicate_iff]
  refine ⟨by simp, fun y hy => ?_⟩
  obtain ⟨i, _, rfl⟩ := List.mem_map.1 hy
  simp

theorem fold_const (f : ℝ → ℝ → ℝ) (c : ℝ) (hf : f c c = c) (l : List ℝ) (h : ∀ y ∈ l, y = c) : l.foldl f c = c := by
  induction l with
  | nil => rfl
  | cons y l ih =>
    rw [List.foldl_cons, h y (by simp), hf]
    exact ih fun z hz => h z (by simp [hz])

/-- **C106 is false for constant fields.** For a constant field that is not negative all levels have the same value. -/
theorem levels_constant_fails (c : ℝ) (hc : 0 ≤ c) (l : List ℝ) (h : ∀ y ∈ l, y = c) (n : Int) (m : ℝ) (hm : 0 < m) :
    contourLevels (c :: l) n m = .ok (List.replicate n.toNat (around3 (m * c))) := by
  have h1 : minOf c l = c := fold_const _ c (min_self c) l h
  have h2 : maxOf c l = c := fold_const _ c (max_self c) l h
  have hmc : 0 ≤ m * c := by positivity
  have hge : 0 ≤ around3 (m * c) := by
    unfold around3
    have e := rint_error (m * c * 1000)
    rw [abs_le] at e
    have : (-1 : ℝ) < ((rint (m * c * 1000) : ℤ) : ℝ) := by linarith [e.1]
    have : -1 < rint (m * c * 1000) := by exact_mod_cast this
    have : (0 : ℝ) ≤ ((rint (m * c * 1000) : ℤ) : ℝ) := by exact_mod_cast (by omega : 0 ≤ rint (m * c * 1000))
    linarith
  have hr : levelRange c l m = (around3 (m * c), around3 (m * c)) := by
    have : levelRange c l m = if |m * minOf c l| < m * maxOf c l then (-around3 (m * maxOf c l), around3 (m * maxOf c l))
      else (around3 (m * minOf c l), |around3 (m * minOf c l)|) := rfl
    rw [this, h1, h2, abs_of_nonneg hmc, if_neg (lt_irrefl _), abs_of_nonneg hge]
  unfold contourLevels
  simp only [hr]
  congr 1
  rw [List.eq_replicate_iff]
  refine ⟨by simp, fun y hy => ?_⟩
  obtain ⟨i, _, rfl⟩ := List.mem_map.1 hy
  simp

example : minOf 1 [-3, 2] < maxOf 1 [-3, 2] ∧ ∃ y ∈ [(1 : ℝ), -3, 2], 11 / 1000 ≤ |y| := by
  refine ⟨by norm_num [minOf, maxOf], 1, by simp, by norm_num⟩
example : stored ['m', 'o', 'm', 'e', 'n', 't', 'u', 'm'] = ['m', 'o', 'm', 'e', 'n'] := by decide

/-! The theorems above at concrete values. -/

example : ∃ b, limits [1, -3, 2] = .ok (-b, b) ∧ ∀ x ∈ [(1 : ℝ), -3, 2], -b ≤ x ∧ x ≤ b := by
  obtain ⟨b, h1, h2, _⟩ := limits_contain [1, -3, 2] (by simp)
  exact ⟨b, h1, h2⟩

/-- A plot of six coordinates of two particles. -/
example : ∃ p q p' r, newScatter 2 (List.replicate 6 [1, -2]) = .ok p ∧ p.plot 0 3 = .ok (q, p') ∧ (∀ x ∈ q.h, q.hLim.1 ≤ x ∧ x ≤ q.hLim.2) ∧
    p.setLabel 4 ['p', 'y'] = .ok r ∧ r.getLabel 4 = .ok ['p', 'y'] := by
  obtain ⟨p, h1, h2, h3, _⟩ := (scatter_refuses 2 (List.replicate 6 [1, -2])).2 (by norm_num)
  obtain ⟨q, p', g1, _, _, g4, _⟩ := plot_contains p 0 3 (by rw [h2]; rfl) h3 (by norm_num) (by norm_num) (by
    rw [h2]
    intro r hr
    rw [List.eq_of_mem_replicate hr]
    simp)
  obtain ⟨r, k1, k2, _⟩ := label_partial p 4 h3 (by norm_num) ['p', 'y'] (by decide) (by decide)
  exact ⟨p, q, p', r, h1, g1, g4, k1, k2⟩

example : ∃ p r s, newScatter 2 [] = .ok p ∧ p.setLabel 4 ['m', 'o', 'm', 'e', 'n', 't'] = .ok r ∧ r.getLabel 4 = .ok s ∧
    s ≠ ['m', 'o', 'm', 'e', 'n', 't'] := by
  obtain ⟨p, h1, _, h3, _⟩ := (scatter_refuses 2 []).2 (by norm_num)
  obtain ⟨r, s, k1, k2, k3, _⟩ := label_fails p 4 h3 (by norm_num) ['m', 'o', 'm', 'e', 'n', 't'] (by decide)
  exact ⟨p, r, s, h1, k1, k2, k3⟩

example : ∃ lev lo hi, contourLevels [1, -3, 2] 40 (11 / 10) = .ok lev ∧ lo ∈ lev ∧ hi ∈ lev ∧ ∀ y ∈ [(1 : ℝ), -3, 2], lo ≤ y ∧ y ≤ hi :=
  levels_cover_partial 1 [-3, 2] (.inl (by norm_num [minOf, maxOf])) ⟨1, by simp, by norm_num⟩

example : ∃ b a, contourLevels [1, -3, 2] 7 2 = .ok ((List.range 7).map fun i : Nat => -b + i * (2 * b / (7 : ℤ))) ∧ |b - 2 * a| ≤ 1 / 2000 := by
  obtain ⟨b, a, h1, _, _, h4⟩ := levels_spaced 1 [-3, 2] 7 (by norm_num) 2 (by norm_num) (.inl (by norm_num [minOf, maxOf]))
  exact ⟨b, a, h1, h4⟩

example : contourLevels [1 / 10000, -1 / 5000] 3 (11 / 10) = .ok [0, 0, 0] :=
  levels_small_fails (1 / 10000) [-1 / 5000] (by
    intro y hy
    simp only [List.mem_cons, List.not_mem_nil, or_false] at hy
    rcases hy with rfl | rfl
    · rw [abs_of_pos (by norm_num)]; norm_num
    · rw [abs_of_neg (by norm_num)]; norm_num) 3

end Verif.Plot
