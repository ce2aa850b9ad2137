import Verif.Plot.PropsDensity

/-!
# Properties C112 and C113: curves beside the density plots, units of the phase space plots
-/

namespace Verif.Plot

theorem histogramPoints_counts {α : Type} (pts : List α) (f : α → ℝ) (n : Nat) (hn : 0 < n) : ∃ c counts, histogramPoints (pts.map f) n = .ok (c, counts) ∧
    (∀ k, k < n → c.getD k 0 = (histRange (pts.map f)).1 + (k + 1 / 2) * (((histRange (pts.map f)).2 - (histRange (pts.map f)).1) / n)) ∧
    ∀ k, k < n → counts.getD k 0 = pts.countP fun q => decide (binOf (histRange (pts.map f)) n (f q) = k) := by
  obtain ⟨c, counts, h⟩ : ∃ c counts, histogramPoints (pts.map f) n = .ok (c, counts) := by
    unfold histogramPoints histogram
    rw [if_neg (by omega)]
    exact ⟨_, _, rfl⟩
  refine ⟨c, counts, h, ?_, ?_⟩
  · intro k hk
    rw [centres_spec _ _ _ _ h]
    simp only [List.getD_eq_getElem?_getD, List.getElem?_map, Int.toNat_natCast, List.getElem?_range hk, Option.map_some, Option.getD_some]
    push_cast
    rfl
  · intro k hk
    unfold histogramPoints histogram at h
    rw [if_neg (by omega)] at h
    simp only [Except.ok.injEq, Prod.mk.injEq, Int.toNat_natCast] at h
    rw [← h.2]
    simp only [List.getD_eq_getElem?_getD, List.getElem?_map, List.getElem?_range hk, Option.map_some, Option.getD_some, List.countP_map]
    rfl

/-- The centres of the two halves of a strip are in the strip. -/
theorem centre_in_strip (lo hi : ℝ) (h : lo < hi) (n k : Nat) (hn : 0 < n) (x : ℝ)
    (hx : x = lo + ((2 * k : ℕ) + 1 / 2) * ((hi - lo) / (2 * n : ℕ)) ∨ x = lo + ((2 * k + 1 : ℕ) + 1 / 2) * ((hi - lo) / (2 * n : ℕ))) : InStrip lo hi n k x := by
  have hn' : (0 : ℝ) < n := by exact_mod_cast hn
  have hw : 0 < (hi - lo) / n := div_pos (by linarith) hn'
  have e1 : (hi - lo) / (2 * n : ℕ) = (hi - lo) / n / 2 := by push_cast; field_simp
  have e2 : (hi - lo) * k / n = k * ((hi - lo) / n) := by ring
  have e3 : (hi - lo) * (k + 1) / n = (k + 1) * ((hi - lo) / n) := by ring
  unfold InStrip
  rw [e2, e3]
  rw [e1] at hx
  push_cast at hx
  rcases hx with hx | hx <;> rw [hx] <;> constructor <;> first | (left; nlinarith) | nlinarith

/-- **C112.** In the plots of the horizontal and vertical phase space, and of any two columns, the sum over a column of the picture is the sum of
the two points of the lower curve that lie above this column, and the sum over a row is the sum of the two points of the side curve
at this row. -/
theorem projection_agrees (pts : List (ℝ × ℝ)) : ∃ pr, projection pts = .ok pr ∧
    (∀ k, k < 128 →
      ((List.range 128).map fun j => pr.image.pixel k j).sum = pr.below.2.getD (2 * k) 0 + pr.below.2.getD (2 * k + 1) 0 ∧
      InStrip pr.image.left pr.image.right 128 k (pr.below.1.getD (2 * k) 0) ∧ InStrip pr.image.left pr.image.right 128 k (pr.below.1.getD (2 * k + 1) 0)) ∧
    ∀ k, k < 128 →
      ((List.range 128).map fun i => pr.image.pixel i k).sum = pr.side.1.getD (2 * k) 0 + pr.side.1.getD (2 * k + 1) 0 ∧
      InStrip pr.image.bottom pr.image.top 128 k (pr.side.2.getD (2 * k) 0) ∧ InStrip pr.image.bottom pr.image.top 128 k (pr.side.2.getD (2 * k + 1) 0) := by
  obtain ⟨xb, xc, hx, hxb, hxc⟩ := histogramPoints_counts pts (fun q => q.1 * 10 ^ 3) 256 (by norm_num)
  obtain ⟨yb, yc, hy, hyb, hyc⟩ := histogramPoints_counts pts (fun q => q.2 * 10 ^ 3) 256 (by norm_num)
  obtain ⟨img, hi, hl, hr, hb, ht, _⟩ := density_eq (pts.map fun q => (q.1 * 10 ^ 3, q.2 * 10 ^ 3)) 128 (by norm_num)
  have m1 : ((pts.map fun q => (q.1 * 10 ^ 3, q.2 * 10 ^ 3)).map fun q => q.1) = pts.map fun q => q.1 * 10 ^ 3 := by rw [List.map_map]; rfl
  have m2 : ((pts.map fun q => (q.1 * 10 ^ 3, q.2 * 10 ^ 3)).map fun q => q.2) = pts.map fun q => q.2 * 10 ^ 3 := by rw [List.map_map]; rfl
  rw [m1] at hl hr
  rw [m2] at hb ht
  refine ⟨⟨img, (yc, yb), (xb, xc)⟩, ?_, ?_, ?_⟩
  · unfold projection
    have hx' : histogramPoints (pts.map fun q => q.1 * 10 ^ 3) 256 = .ok (xb, xc) := hx
    have hy' : histogramPoints (pts.map fun q => q.2 * 10 ^ 3) 256 = .ok (yb, yc) := hy
    have hi' : density (pts.map fun q => (q.1 * 10 ^ 3, q.2 * 10 ^ 3)) 128 = .ok img := hi
    rw [hx', hy', hi']
    rfl
  · intro k hk
    have hcol := column_sum _ 128 (by norm_num) img hi k hk
    rw [m1, List.countP_map] at hcol
    have hd := count_double pts (fun q => q.1 * 10 ^ 3) 128 (by norm_num) k hk
    refine ⟨?_, ?_, ?_⟩
    · simp only
      rw [hcol, hxc _ (by omega), hxc _ (by omega)]
      exact hd
    · simp only
      rw [hl, hr]
      refine centre_in_strip _ _ (range_spec _).1 128 k (by norm_num) _ (.inl ?_)
      rw [hxb _ (by omega)]
    · simp only
      rw [hl, hr]
      refine centre_in_strip _ _ (range_spec _).1 128 k (by norm_num) _ (.inr ?_)
      rw [hxb _ (by omega)]
  · intro k hk
    have hrow := row_sum _ 128 (by norm_num) img hi k hk
    rw [m2, List.countP_map] at hrow
    have hd := count_double pts (fun q => q.2 * 10 ^ 3) 128 (by norm_num) k hk
    refine ⟨?_, ?_, ?_⟩
    · simp only
      rw [hrow, hyc _ (by omega), hyc _ (by omega)]
      exact hd
    · simp only
      rw [hb, ht]
      refine centre_in_strip _ _ (range_spec _).1 128 k (by norm_num) _ (.inl ?_)
      rw [hyb _ (by omega)]
    · simp only
      rw [hb, ht]
      refine centre_in_strip _ _ (range_spec _).1 128 k (by norm_num) _ (.inr ?_)
      rw [hyb _ (by omega)]

theorem minOf_scale (c : ℝ) (hc : 0 < c) (l : List ℝ) : ∀ x, minOf (x * c) (l.map fun y => y * c) = minOf x l * c := by
  unfold minOf
  induction l with
  | nil => intro x; rfl
  | cons y l ih => intro x; rw [List.map_cons, List.foldl_cons, List.foldl_cons, ← ih, min_mul_of_nonneg _ _ hc.le]

theorem maxOf_scale (c : ℝ) (hc : 0 < c) (l : List ℝ) : ∀ x, maxOf (x * c) (l.map fun y => y * c) = maxOf x l * c := by
  unfold maxOf
  induction l with
  | nil => intro x; rfl
  | cons y l ih => intro x; rw [List.map_cons, List.foldl_cons, List.foldl_cons, ← ih, max_mul_of_nonneg _ _ hc.le]

/-- The range of multiplied data, unless they are all the same. -/
theorem histRange_scale (c : ℝ) (hc : 0 < c) (l : List ℝ) (a b : ℝ) (ha : a ∈ l) (hb : b ∈ l) (hab : a ≠ b) :
    histRange (l.map fun y => y * c) = ((histRange l).1 * c, (histRange l).2 * c) := by
  cases l with
  | nil => simp at ha
  | cons x l =>
    have hne : minOf x l ≠ maxOf x l := by
      intro he
      have h1 := minOf_le _ _ _ ha
      have h2 := minOf_le _ _ _ hb
      have h3 := le_maxOf _ _ _ ha
      have h4 := le_maxOf _ _ _ hb
      exact hab (by linarith)
    rw [List.map_cons, histRange, histRange, minOf_scale c hc, maxOf_scale c hc, if_neg hne,
      if_neg (fun h => hne (mul_right_cancel₀ hc.ne' h))]

/-- Multiplying all data leaves them in their bins. -/
theorem binOf_scale (c : ℝ) (hc : 0 < c) (l : List ℝ) (n : Nat) (x : ℝ) (hx : x ∈ l) :
    binOf (histRange (l.map fun y => y * c)) n (x * c) = binOf (histRange l) n x := by
  have key : (x * c - (histRange (l.map fun y => y * c)).1) / ((histRange (l.map fun y => y * c)).2 - (histRange (l.map fun y => y * c)).1) =
      (x - (histRange l).1) / ((histRange l).2 - (histRange l).1) := by
    by_cases h : ∃ a ∈ l, a ≠ x
    · obtain ⟨a, ha, hax⟩ := h
      rw [histRange_scale c hc l a x ha hx hax]
      simp only
      have hr := (range_spec l).1
      have : (histRange l).2 - (histRange l).1 ≠ 0 := by linarith
      rw [← sub_mul, ← sub_mul, mul_div_mul_right _ _ hc.ne']
    · push Not at h
      cases l with
      | nil => simp at hx
      | cons y l =>
        have e1 : minOf y l = x := h _ (minOf_mem y l)
        have e2 : maxOf y l = x := h _ (maxOf_mem y l)
        rw [List.map_cons, histRange, histRange, minOf_scale c hc, maxOf_scale c hc, e1, e2, if_pos rfl, if_pos rfl]
        simp only
        ring
  unfold binOf
  rw [key]

/-- **C112, longitudinal.** With a charge given, the charge in a column of the picture of the longitudinal phase space (its count times the charge
per particle) is the current of the two points of the lower curve times the length `δ` of their bins in seconds, and the sum over a row is the
sum of the two points of the side curve. Unless all times are equal the points of the lower curve lie at their column. -/
theorem longitudinal_agrees (page : List Ptcl) (hne : page ≠ []) (q : ℝ) (param : Option ℝ) : ∃ L δ, longitudinal page (.value q) param = .ok L ∧ 0 < δ ∧
    (∀ k, k < 128 →
      (((List.range 128).map fun j => L.image.pixel k j).sum : ℕ) * (q / page.length) = (L.below.2.getD (2 * k) 0 + L.below.2.getD (2 * k + 1) 0) * δ) ∧
    ((∃ a ∈ page, ∃ b ∈ page, a.t ≠ b.t) → ∀ k, k < 128 →
      InStrip L.image.left L.image.right 128 k (L.below.1.getD (2 * k) 0) ∧ InStrip L.image.left L.image.right 128 k (L.below.1.getD (2 * k + 1) 0)) ∧
    ∀ k, k < 128 →
      ((List.range 128).map fun i => L.image.pixel i k).sum = L.side.1.getD (2 * k) 0 + L.side.1.getD (2 * k + 1) 0 ∧
      InStrip L.image.bottom L.image.top 128 k (L.side.2.getD (2 * k) 0) ∧ InStrip L.image.bottom L.image.top 128 k (L.side.2.getD (2 * k + 1) 0) := by
  set av := average (page.map Ptcl.t) with hav
  have hne' : page.map Ptcl.t ≠ [] := by simpa using hne
  obtain ⟨pb, pc, hp, hpb, hpc⟩ := histogramPoints_counts page Ptcl.p 256 (by norm_num)
  obtain ⟨img, hi, hl, hr, hb, ht, _⟩ := density_eq (page.map fun z => ((z.t - av) * 10 ^ 12, z.p)) 128 (by norm_num)
  have m1 : ((page.map fun z => ((z.t - av) * 10 ^ 12, z.p)).map fun z => z.1) = page.map fun z => (z.t - av) * 10 ^ 12 := by rw [List.map_map]; rfl
  have m2 : ((page.map fun z => ((z.t - av) * 10 ^ 12, z.p)).map fun z => z.2) = page.map Ptcl.p := by rw [List.map_map]; rfl
  have m3 : (page.map fun z => (z.t - av) * 10 ^ 12) = (page.map fun z => z.t - av).map fun y => y * 10 ^ 12 := by rw [List.map_map]; rfl
  rw [m1] at hl hr
  rw [m2] at hb ht
  -- the data of the current
  have hzero : average (page.map fun z => z.t - av) = 0 := by
    have := average_shift (page.map Ptcl.t) hne'
    rwa [List.map_map] at this
  have hdata : (((page.map Ptcl.t).map fun t => t - average (page.map Ptcl.t)).map fun t => t - average ((page.map Ptcl.t).map fun t => t - average (page.map Ptcl.t))) =
      page.map fun z => z.t - av := by
    have e : ((page.map Ptcl.t).map fun t => t - average (page.map Ptcl.t)) = page.map fun z => z.t - av := by rw [List.map_map]; rfl
    rw [e, hzero]
    simp
  obtain ⟨tb, tc, hh, htb, htc⟩ := histogramPoints_counts page (fun z => z.t - av) 256 (by norm_num)
  obtain ⟨hrg, _⟩ := range_spec (page.map fun z => z.t - av)
  set r := histRange (page.map fun z => z.t - av) with hrdef
  set δ := (r.2 - r.1) / 256 with hδ
  have hδ0 : 0 < δ := by rw [hδ]; linarith
  obtain ⟨counts, edges, hhist, hcl, hel, hedge, _⟩ := counts_interval (page.map fun z => z.t - av) 256 (by norm_num)
  have hh' : tb = centers edges ∧ tc = counts := by
    unfold histogramPoints at hh
    have : histogram (page.map fun z => z.t - av) (256 : ℕ) = .ok (counts, edges) := hhist
    rw [this] at hh
    simp only [Except.ok.injEq, Prod.mk.injEq] at hh
    exact ⟨hh.1.symm, hh.2.symm⟩
  have hlen : edges.getD 1 0 - edges.getD 0 0 = δ := by
    rw [hedge 1 (by norm_num), hedge 0 (by norm_num), ← hrdef, hδ]
    push_cast
    ring
  have hcur : longitudinalCurrent (page.map Ptcl.t) (.value q) param =
      .ok (tb, tc.map fun (c : Nat) => (c : ℝ) * (q / page.length) / δ, "Current (A)") := by
    unfold longitudinalCurrent chargeOf
    simp only
    unfold currentFromT
    rw [if_neg (by simpa using hne), hdata, hhist]
    simp only [hlen, List.length_map, hh'.1, hh'.2]
    rfl
  refine ⟨⟨img, (pc, pb), (tb.map fun b => b * 10 ^ 12, tc.map fun (c : Nat) => (c : ℝ) * (q / page.length) / δ), "Current (A)"⟩, δ, ?_, hδ0, ?_, ?_, ?_⟩
  · unfold longitudinal
    have hp' : histogramPoints (page.map Ptcl.p) 256 = .ok (pb, pc) := hp
    have hi' : density (page.map fun z => ((z.t - average (page.map Ptcl.t)) * 10 ^ 12, z.p)) 128 = .ok img := hi
    simp only [hcur, hp', hi', bind, Except.bind]
  · intro k hk
    have hcol := column_sum _ 128 (by norm_num) img hi k hk
    rw [m1, List.countP_map] at hcol
    have hd := count_double page (fun z => z.t - av) 128 (by norm_num) k hk
    have hscale : (page.countP fun z => decide (binOf (histRange (page.map fun z => (z.t - av) * 10 ^ 12)) 128 ((z.t - av) * 10 ^ 12) = k)) =
        page.countP fun z => decide (binOf r 128 (z.t - av) = k) := by
      refine List.countP_congr fun z hz => ?_
      rw [m3, binOf_scale _ (by norm_num) _ _ _ (List.mem_map.2 ⟨z, hz, rfl⟩)]
    have hc2 : ((List.range 128).map fun j => img.pixel k j).sum = tc.getD (2 * k) 0 + tc.getD (2 * k + 1) 0 := by
      rw [hcol, htc _ (by omega), htc _ (by omega)]
      exact hscale.trans hd
    have hmap : ∀ j, (tc.map fun (c : Nat) => (c : ℝ) * (q / page.length) / δ).getD j 0 = (tc.getD j 0 : ℕ) * (q / page.length) / δ := by
      intro j
      simp only [List.getD_eq_getElem?_getD, List.getElem?_map]
      cases tc[j]? <;> simp
    simp only
    rw [hc2, hmap, hmap]
    push_cast
    field_simp
  · rintro ⟨a, ha, b, hb', hab⟩ k hk
    have hs := histRange_scale (10 ^ 12) (by norm_num) (page.map fun z => z.t - av) (a.t - av) (b.t - av) (List.mem_map.2 ⟨a, ha, rfl⟩) (List.mem_map.2 ⟨b, hb', rfl⟩)
      (fun h => hab (by linarith))
    rw [← m3, ← hrdef] at hs
    have hlt : r.1 * 10 ^ 12 < r.2 * 10 ^ 12 := mul_lt_mul_of_pos_right hrg (by norm_num)
    have hmap : ∀ j, j < 256 → (tb.map fun b => b * 10 ^ 12).getD j 0 = r.1 * 10 ^ 12 + (j + 1 / 2) * ((r.2 * 10 ^ 12 - r.1 * 10 ^ 12) / (2 * 128 : ℕ)) := by
      intro j hj
      have h1 := htb j hj
      have h2 : (tb.map fun b => b * 10 ^ 12).getD j 0 = tb.getD j 0 * 10 ^ 12 := by
        simp only [List.getD_eq_getElem?_getD, List.getElem?_map]
        cases tb[j]? <;> simp
      rw [h2, h1]
      push_cast
      ring
    simp only
    rw [hl, hr, hs]
    exact ⟨centre_in_strip _ _ hlt 128 k (by norm_num) _ (.inl (hmap _ (by omega))), centre_in_strip _ _ hlt 128 k (by norm_num) _ (.inr (hmap _ (by omega)))⟩
  · intro k hk
    have hrow := row_sum _ 128 (by norm_num) img hi k hk
    rw [m2, List.countP_map] at hrow
    have hd := count_double page Ptcl.p 128 (by norm_num) k hk
    refine ⟨?_, ?_, ?_⟩
    · simp only
      rw [hrow, hpc _ (by omega), hpc _ (by omega)]
      exact hd
    · simp only
      rw [hb, ht]
      refine centre_in_strip _ _ (range_spec _).1 128 k (by norm_num) _ (.inl ?_)
      rw [hpb _ (by omega)]
    · simp only
      rw [hb, ht]
      refine centre_in_strip _ _ (range_spec _).1 128 k (by norm_num) _ (.inr ?_)
      rw [hpb _ (by omega)]

/-! ## Units of the four plots -/

/-- The picture has `n` times `n` cells and shows the coordinates `f` and `g` of the particles: all are within the borders, and every cell has the
number of particles in it. -/
def Shows (img : Image) (n : Nat) (page : List Ptcl) (f g : Ptcl → ℝ) : Prop :=
  img.rows.length = n ∧ (∀ row ∈ img.rows, row.length = n) ∧
  (∀ z ∈ page, img.left ≤ f z ∧ f z ≤ img.right ∧ img.bottom ≤ g z ∧ g z ≤ img.top) ∧
  ∀ i j, i < n → j < n → ∀ cell : Ptcl → Bool,
    (∀ z, cell z = true ↔ InStrip img.left img.right n i (f z) ∧ InStrip img.bottom img.top n j (g z)) → img.pixel i j = page.countP cell

theorem shows_density (page : List Ptcl) (f g : Ptcl → ℝ) (n : Nat) (hn : 0 < n) :
    ∃ img, density (page.map fun z => (f z, g z)) n = .ok img ∧ Shows img n page f g := by
  obtain ⟨img, h, h1, h2, h3, h4⟩ := density_cell (page.map fun z => (f z, g z)) n hn
  refine ⟨img, h, h1, h2, fun z hz => h3 _ (List.mem_map.2 ⟨z, hz, rfl⟩), ?_⟩
  intro i j hi hj cell hcell
  classical
  rw [h4 i j hi hj (fun q => decide (InStrip img.left img.right n i q.1 ∧ InStrip img.bottom img.top n j q.2)) (by simp), List.countP_map]
  refine List.countP_congr fun z _ => ?_
  rw [hcell]
  simp

/-- **C113.** The four pictures show position against angle in millimetres and milliradians, and the times in picoseconds and the momenta
relative to their averages, if the average momentum is not zero. -/
theorem phase_space_partial (page : List Ptcl) (n : Nat) (hn : 0 < n) (hp : (page.map Ptcl.p).sum ≠ 0) :
    ∃ a b c d, phaseSpace page n = .ok [⟨a, "x (mm)", "x' (mrad)"⟩, ⟨b, "y (mm)", "y' (mrad)"⟩, ⟨c, "x (mm)", "y (mm)"⟩, ⟨d, "t (ps)", "$\\delta$ ( )"⟩] ∧
      Shows a n page (fun z => 1000 * z.x) (fun z => 1000 * z.xp) ∧ Shows b n page (fun z => 1000 * z.y) (fun z => 1000 * z.yp) ∧
      Shows c n page (fun z => 1000 * z.x) (fun z => 1000 * z.y) ∧
      ∃ t0 p0, Shows d n page (fun z => 1000000000000 * (z.t - t0)) (fun z => z.p / p0 - 1) ∧
        (page.map fun z => z.t - t0).sum = 0 ∧ p0 * page.length = (page.map Ptcl.p).sum := by
  have hne : page ≠ [] := by rintro rfl; simp at hp
  have hlen : (page.length : ℝ) ≠ 0 := by
    have := List.length_pos_iff.2 hne
    positivity
  have hav : average (page.map Ptcl.p) ≠ 0 := by
    unfold average
    rw [List.length_map]
    exact div_ne_zero hp hlen
  obtain ⟨a, ha, sa⟩ := shows_density page (fun z => 1000 * z.x) (fun z => 1000 * z.xp) n hn
  obtain ⟨b, hb, sb⟩ := shows_density page (fun z => 1000 * z.y) (fun z => 1000 * z.yp) n hn
  obtain ⟨c, hc, sc⟩ := shows_density page (fun z => 1000 * z.x) (fun z => 1000 * z.y) n hn
  obtain ⟨d, hd, sd⟩ := shows_density page (fun z => 1000000000000 * (z.t - average (page.map Ptcl.t))) (fun z => z.p / average (page.map Ptcl.p) - 1) n hn
  refine ⟨a, b, c, d, ?_, sa, sb, sc, average (page.map Ptcl.t), average (page.map Ptcl.p), sd, ?_, ?_⟩
  · have ea : (page.map fun q => (q.x * 10 ^ 3, q.xp * 10 ^ 3)) = page.map fun z => (1000 * z.x, 1000 * z.xp) :=
      List.map_congr_left fun z _ => by ext <;> simp only <;> ring
    have eb : (page.map fun q => (q.y * 10 ^ 3, q.yp * 10 ^ 3)) = page.map fun z => (1000 * z.y, 1000 * z.yp) :=
      List.map_congr_left fun z _ => by ext <;> simp only <;> ring
    have ec : (page.map fun q => (q.x * 10 ^ 3, q.y * 10 ^ 3)) = page.map fun z => (1000 * z.x, 1000 * z.y) :=
      List.map_congr_left fun z _ => by ext <;> simp only <;> ring
    have ed : timeDelta page = .ok (page.map fun z => (1000000000000 * (z.t - average (page.map Ptcl.t)), z.p / average (page.map Ptcl.p) - 1)) := by
      unfold timeDelta
      simp only
      rw [if_neg (fun h => hav h.2)]
      refine congrArg Except.ok (List.map_congr_left fun z _ => ?_)
      ext
      · simp only; ring
      · simp only; rw [sub_div, div_self hav]
    unfold phaseSpace
    simp only [ea, eb, ec, ed, ha, hb, hc, hd, bind, Except.bind]
  · have := average_shift (page.map Ptcl.t) (by simpa using hne)
    unfold average at this
    rw [List.length_map, List.length_map, List.map_map, List.length_map] at this
    have h0 := (div_eq_zero_iff.1 this).resolve_right hlen
    have e : average (page.map Ptcl.t) = (page.map Ptcl.t).sum / page.length := by unfold average; rw [List.length_map]
    rw [e]
    exact h0
  · unfold average
    rw [List.length_map]
    field_simp

/-- **C113 is false.** If the momenta have the average zero nothing is shown: ValueError is raised. -/
theorem phase_space_zero_fails (page : List Ptcl) (hne : page ≠ []) (n : Int) (hp : (page.map Ptcl.p).sum = 0) : phaseSpace page n = .error .valueError := by
  by_cases hn : n < 1
  · unfold phaseSpace
    rw [density_refuses _ _ hn]
    rfl
  · obtain ⟨m, rfl⟩ : ∃ m : Nat, n = m := ⟨n.toNat, by omega⟩
    have hm : 0 < m := by omega
    obtain ⟨a, ha, _⟩ := density_eq (page.map fun q => (q.x * 10 ^ 3, q.xp * 10 ^ 3)) m hm
    obtain ⟨b, hb, _⟩ := density_eq (page.map fun q => (q.y * 10 ^ 3, q.yp * 10 ^ 3)) m hm
    obtain ⟨c, hc, _⟩ := density_eq (page.map fun q => (q.x * 10 ^ 3, q.y * 10 ^ 3)) m hm
    have ht : timeDelta page = .error .valueError := by
      unfold timeDelta
      simp only
      rw [if_pos ⟨hne, by unfold average; rw [hp, zero_div]⟩]
    unfold phaseSpace
    rw [ha, hb, hc, ht]
    rfl

/-- **C112, the picture.** The picture beside the curves shows the two columns in thousandths of their units. -/
theorem projection_shows (page : List Ptcl) (f g : Ptcl → ℝ) :
    ∃ pr, projection (page.map fun z => (f z, g z)) = .ok pr ∧ Shows pr.image 128 page (fun z => 1000 * f z) (fun z => 1000 * g z) := by
  obtain ⟨pr, h, _⟩ := projection_agrees (page.map fun z => (f z, g z))
  refine ⟨pr, h, ?_⟩
  obtain ⟨img, hi, hs⟩ := shows_density page (fun z => 1000 * f z) (fun z => 1000 * g z) 128 (by norm_num)
  have e : ((page.map fun z => (f z, g z)).map fun q => (q.1 * 10 ^ 3, q.2 * 10 ^ 3)) = page.map fun z => (1000 * f z, 1000 * g z) := by
    rw [List.map_map]
    exact List.map_congr_left fun z _ => by ext <;> simp only [Function.comp] <;> ring
  unfold projection at h
  have hi' : density (page.map fun z => (1000 * f z, 1000 * g z)) 128 = .ok img := hi
  rw [e, hi'] at h
  cases hx : histogramPoints ((page.map fun z => (f z, g z)).map fun q => q.1 * 10 ^ 3) 256 with
  | error x => rw [hx] at h; cases h
  | ok a =>
    cases hy : histogramPoints ((page.map fun z => (f z, g z)).map fun q => q.2 * 10 ^ 3) 256 with
    | error x => rw [hx, hy] at h; cases h
    | ok b =>
      rw [hx, hy] at h
      simp only [bind, Except.bind, Except.ok.injEq] at h
      rw [← h]
      exact hs

/-- **C112, the planes.** The plots of the horizontal, vertical and longitudinal phase space show `x` against `x'` and `y` against `y'` in
millimetres and milliradians, and the time since the average time in picoseconds against the momentum. -/
theorem plane_pictures (page : List Ptcl) (hne : page ≠ []) (q : ℝ) (param : Option ℝ) :
    ∃ ph pv L t0, horizontal page = .ok ph ∧ vertical page = .ok pv ∧ longitudinal page (.value q) param = .ok L ∧
      Shows ph.image 128 page (fun z => 1000 * z.x) (fun z => 1000 * z.xp) ∧
      Shows pv.image 128 page (fun z => 1000 * z.y) (fun z => 1000 * z.yp) ∧
      Shows L.image 128 page (fun z => 1000000000000 * (z.t - t0)) Ptcl.p ∧ t0 * page.length = (page.map Ptcl.t).sum := by
  obtain ⟨ph, h1, h2⟩ := projection_shows page Ptcl.x Ptcl.xp
  obtain ⟨pv, h3, h4⟩ := projection_shows page Ptcl.y Ptcl.yp
  obtain ⟨L, _, h5, _⟩ := longitudinal_agrees page hne q param
  refine ⟨ph, pv, L, average (page.map Ptcl.t), h1, h3, h5, h2, h4, ?_, ?_⟩
  · obtain ⟨img, hi, hs⟩ := shows_density page (fun z => 1000000000000 * (z.t - average (page.map Ptcl.t))) Ptcl.p 128 (by norm_num)
    have e : (page.map fun q => ((q.t - average (page.map Ptcl.t)) * 10 ^ 12, q.p)) =
        page.map fun z => (1000000000000 * (z.t - average (page.map Ptcl.t)), z.p) :=
      List.map_congr_left fun z _ => by ext <;> simp only <;> ring
    have hi' : density (page.map fun z => (1000000000000 * (z.t - average (page.map Ptcl.t)), z.p)) 128 = .ok img := hi
    unfold longitudinal at h5
    simp only at h5
    rw [e, hi'] at h5
    cases hx : longitudinalCurrent (page.map Ptcl.t) (.value q) param with
    | error x => rw [hx] at h5; cases h5
    | ok a =>
      cases hy : histogramPoints (page.map Ptcl.p) 256 with
      | error x => rw [hx, hy] at h5; cases h5
      | ok b =>
        rw [hx, hy] at h5
        simp only [bind, Except.bind, Except.ok.injEq] at h5
        rw [← h5]
        exact hs
  · have hlen : (page.length : ℝ) ≠ 0 := by
      have := List.length_pos_iff.2 hne
      positivity
    unfold average
    rw [List.length_map]
    field_simp

/-- Two particles. -/
noncomputable def exPage : List Ptcl := [⟨0.001, 0, 0, 0.002, 0, 100⟩, ⟨-0.001, 0.003, 0.004, 0, 0.5, 102⟩]

example : ∃ pr, horizontal exPage = .ok pr ∧
    ((List.range 128).map fun j => pr.image.pixel 127 j).sum = pr.below.2.getD 254 0 + pr.below.2.getD 255 0 := by
  obtain ⟨pr, h, h1, _⟩ := projection_agrees (exPage.map fun q => (q.x, q.xp))
  exact ⟨pr, h, (h1 127 (by norm_num)).1⟩

example : ∃ L, longitudinal exPage (.value 1) none = .ok L ∧ InStrip L.image.left L.image.right 128 5 (L.below.1.getD 10 0) := by
  obtain ⟨L, δ, h, _, _, h2, _⟩ := longitudinal_agrees exPage (by simp [exPage]) 1 none
  refine ⟨L, h, (h2 ⟨⟨0.001, 0, 0, 0.002, 0, 100⟩, by simp [exPage], ⟨-0.001, 0.003, 0.004, 0, 0.5, 102⟩, by simp [exPage], by norm_num⟩ 5 (by norm_num)).1⟩

example : ∃ pv, vertical exPage = .ok pv ∧ pv.image.left ≤ 0 ∧ 4 ≤ pv.image.right := by
  obtain ⟨_, pv, _, _, _, h, _, _, hs, _⟩ := plane_pictures exPage (by simp [exPage]) 1 none
  have h1 := (hs.2.2.1 ⟨0.001, 0, 0, 0.002, 0, 100⟩ (by simp [exPage])).1
  have h2 := (hs.2.2.1 ⟨-0.001, 0.003, 0.004, 0, 0.5, 102⟩ (by simp [exPage])).2.1
  refine ⟨pv, h, by norm_num at h1 ⊢; linarith, by norm_num at h2 ⊢; linarith⟩

example : ∃ ps, phaseSpace exPage (10 : Nat) = .ok ps ∧ ps.length = 4 := by
  obtain ⟨a, b, c, d, h, _⟩ := phase_space_partial exPage 10 (by norm_num) (by norm_num [exPage])
  exact ⟨_, h, rfl⟩

example : phaseSpace [⟨1, 0, 0, 0, 0, 2⟩, ⟨0, 0, 1, 0, 3, -2⟩] 10 = .error .valueError :=
  phase_space_zero_fails [⟨1, 0, 0, 0, 0, 2⟩, ⟨0, 0, 1, 0, 3, -2⟩] (by simp) 10 (by norm_num)

end Verif.Plot
