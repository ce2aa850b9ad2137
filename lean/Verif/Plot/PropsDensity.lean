import Verif.Plot.Density
import Verif.Plot.PropsHistogram

/-!
# Properties C111, C112 and C113: density plots
-/

namespace Verif.Plot

theorem takeWhile_range (P : Nat → Bool) (hP : ∀ j, P (j + 1) = true → P j = true) : ∀ m s k : Nat,
    k < ((List.range' s m).takeWhile P).length ↔ k < m ∧ P (s + k) = true := by
  intro m
  induction m with
  | zero => intro s k; simp
  | succ m ih =>
    intro s k
    rw [List.range'_succ, List.takeWhile_cons]
    by_cases h : P s = true
    · rw [if_pos h]
      cases k with
      | zero => simp [h]
      | succ k =>
        rw [List.length_cons, Nat.succ_lt_succ_iff, ih, Nat.succ_lt_succ_iff]
        have : s + 1 + k = s + (k + 1) := by omega
        rw [this]
    · rw [if_neg h]
      have hdown : ∀ k, P (s + k) = true → P s = true := by
        intro k
        induction k with
        | zero => intro h; exact h
        | succ k ihk => intro hk; exact ihk (hP _ hk)
      constructor
      · intro hk; simp at hk
      · rintro ⟨_, hk⟩; exact absurd (hdown k hk) h

theorem edge_mono (r : ℝ × ℝ) (hr : r.1 < r.2) (n : Nat) : ∀ j, edge r n j ≤ edge r n (j + 1) := by
  intro j
  unfold edge
  have : 0 ≤ (r.2 - r.1) / n := div_nonneg (by linarith) (Nat.cast_nonneg n)
  push_cast
  linarith

theorem edge_mono' (r : ℝ × ℝ) (hr : r.1 < r.2) (n : Nat) {i j : Nat} (h : i ≤ j) : edge r n i ≤ edge r n j := by
  induction h with
  | refl => exact le_refl _
  | step _ ih => exact le_trans ih (edge_mono r hr n _)

theorem edgesUpTo_iff (data : List ℝ) (n : Nat) (hn : 0 < n) (x : ℝ) (hx : x ≤ (histRange data).2) (k : Nat) (hk : k < n) :
    edgesUpTo (edgesOf data n) x = k + 1 ↔ InBin (histRange data) n k x := by
  obtain ⟨hr, _⟩ := range_spec data
  set r := histRange data with hrdef
  have hlen : ∀ j, j < ((edgesOf data n).takeWhile fun e => decide (e ≤ x)).length ↔ j < n + 1 ∧ edge r n j ≤ x := by
    intro j
    unfold edgesOf
    rw [List.takeWhile_map, List.length_map, List.range_eq_range', takeWhile_range]
    · simp [hrdef]
    · intro j hj
      simp only [Function.comp, decide_eq_true_eq] at hj ⊢
      exact le_trans (edge_mono r hr n j) hj
  have hlast : (edgesOf data n).getLastD 0 = r.2 := by
    unfold edgesOf
    rw [List.range_succ, List.map_append, ← edge_last r n hn]
    simp [hrdef]
  unfold edgesUpTo
  simp only
  rw [hlast]
  set L := ((edgesOf data n).takeWhile fun e => decide (e ≤ x)).length with hL
  by_cases he : x = r.2
  · rw [if_pos he]
    have h1 : n < L := (hlen n).2 ⟨by omega, by rw [edge_last r n hn]; exact he.ge⟩
    have h2 : ¬ n + 1 < L := fun h => by have := ((hlen (n + 1)).1 h).1; omega
    unfold InBin
    constructor
    · intro h
      exact ⟨by rw [he, ← edge_last r n hn]; exact edge_mono' r hr n hk.le, .inr ⟨by omega, he⟩⟩
    · rintro ⟨_, h | h⟩
      · exfalso
        rw [he, ← edge_last r n hn] at h
        exact absurd (edge_mono' r hr n (i := k + 1) (j := n) hk) (not_le.2 h)
      · omega
  · rw [if_neg he]
    have h1 := hlen k
    have h2 := hlen (k + 1)
    unfold InBin
    constructor
    · intro h
      refine ⟨(h1.1 (by omega)).2, .inl ?_⟩
      by_contra hc
      have := h2.2 ⟨by omega, not_lt.1 hc⟩
      omega
    · rintro ⟨ha, hb | hb⟩
      · have := h1.2 ⟨by omega, ha⟩
        have h3 : ¬ k + 1 < L := fun h => absurd (h2.1 h).2 (not_le.2 hb)
        omega
      · exact absurd hb.2 he

theorem npMin_edges (data : List ℝ) (n : Nat) : npMin (edgesOf data n) = (histRange data).1 := by
  obtain ⟨hr, _⟩ := range_spec data
  have h0 : edgesOf data n = edge (histRange data) n 0 :: ((List.range' 1 n).map fun k => edge (histRange data) n k) := by
    unfold edgesOf
    rw [List.range_eq_range', List.range'_succ, List.map_cons]
  have e0 : edge (histRange data) n 0 = (histRange data).1 := by simp [edge]
  rw [h0, npMin]
  refine le_antisymm (e0 ▸ minOf_le _ _ _ (by simp)) ?_
  have hm := minOf_mem (edge (histRange data) n 0) ((List.range' 1 n).map fun k => edge (histRange data) n k)
  rw [← h0] at hm
  unfold edgesOf at hm
  obtain ⟨k, _, hk⟩ := List.mem_map.1 hm
  rw [← hk, ← e0]
  exact edge_mono' _ hr n (Nat.zero_le k)

theorem npMax_edges (data : List ℝ) (n : Nat) (hn : 0 < n) : npMax (edgesOf data n) = (histRange data).2 := by
  obtain ⟨hr, _⟩ := range_spec data
  have h0 : edgesOf data n = edge (histRange data) n 0 :: ((List.range' 1 n).map fun k => edge (histRange data) n k) := by
    unfold edgesOf
    rw [List.range_eq_range', List.range'_succ, List.map_cons]
  have en : edge (histRange data) n n = (histRange data).2 := edge_last _ n hn
  rw [h0, npMax]
  refine le_antisymm ?_ ?_
  · have hm := maxOf_mem (edge (histRange data) n 0) ((List.range' 1 n).map fun k => edge (histRange data) n k)
    rw [← h0] at hm
    unfold edgesOf at hm
    obtain ⟨k, hk', hk⟩ := List.mem_map.1 hm
    rw [List.mem_range] at hk'
    rw [← hk, ← en]
    exact edge_mono' _ hr n (by omega)
  · refine le_maxOf _ _ _ ?_
    rw [← h0]
    unfold edgesOf
    exact List.mem_map.2 ⟨n, by simp, en⟩

/-! ## Specification -/

/-- `x` belongs to strip number `k` of `n` equal strips between `lo` and `hi`: the upper boundary belongs to the next strip, that of the last
strip to the last. -/
def InStrip (lo hi : ℝ) (n k : Nat) (x : ℝ) : Prop :=
  lo + (hi - lo) * k / n ≤ x ∧ (x < lo + (hi - lo) * (k + 1) / n ∨ k + 1 = n ∧ x = hi)

/-- The number drawn in column `i` from the left and row `j` from the bottom. -/
def Image.pixel (m : Image) (i j : Nat) : Nat := (m.rows.getD j []).getD i 0

theorem inStrip_iff (r : ℝ × ℝ) (n k : Nat) (x : ℝ) : InStrip r.1 r.2 n k x ↔ InBin r n k x := by
  have e : ∀ j : Nat, r.1 + (r.2 - r.1) * j / n = edge r n j := by intro j; unfold edge; ring
  have e1 := e (k + 1)
  push_cast at e1
  unfold InStrip InBin
  rw [e, e1]

/-- `density` written out. -/
theorem density_eq (pts : List (ℝ × ℝ)) (n : Nat) (hn : 0 < n) : ∃ img, density pts n = .ok img ∧
    img.left = (histRange (pts.map fun q => q.1)).1 ∧ img.right = (histRange (pts.map fun q => q.1)).2 ∧
    img.bottom = (histRange (pts.map fun q => q.2)).1 ∧ img.top = (histRange (pts.map fun q => q.2)).2 ∧
    img.rows = (List.range n).map fun j => (List.range n).map fun i =>
      pts.countP fun q => decide (edgesUpTo (edgesOf (pts.map fun q => q.1) n) q.1 = i + 1) && decide (edgesUpTo (edgesOf (pts.map fun q => q.2) n) q.2 = j + 1) := by
  unfold density histogram2d
  rw [if_neg (by omega)]
  simp only [Int.toNat_natCast]
  refine ⟨_, rfl, npMin_edges _ _, npMax_edges _ _ hn, npMin_edges _ _, npMax_edges _ _ hn, ?_⟩
  unfold transposed
  simp only [List.length_map, List.length_range, List.map_map]
  refine List.map_congr_left fun j hj => ?_
  rw [List.mem_range] at hj
  refine List.map_congr_left fun i _ => ?_
  simp only [Function.comp, List.getD_eq_getElem?_getD, List.getElem?_map, List.getElem?_range hj, Option.map_some, Option.getD_some]

/-- **C111, cells.** The picture has `n` columns and `n` rows, all particles are within its borders, and the number in column `i` from the left
and row `j` from the bottom is the number of particles with the horizontal coordinate in strip `i` and the vertical one in strip `j`. -/
theorem density_cell (pts : List (ℝ × ℝ)) (n : Nat) (hn : 0 < n) : ∃ img, density pts n = .ok img ∧
    img.rows.length = n ∧ (∀ row ∈ img.rows, row.length = n) ∧
    (∀ q ∈ pts, img.left ≤ q.1 ∧ q.1 ≤ img.right ∧ img.bottom ≤ q.2 ∧ q.2 ≤ img.top) ∧
    ∀ i j, i < n → j < n → ∀ cell : ℝ × ℝ → Bool,
      (∀ q, cell q = true ↔ InStrip img.left img.right n i q.1 ∧ InStrip img.bottom img.top n j q.2) → img.pixel i j = pts.countP cell := by
  obtain ⟨img, h, hl, hr, hb, ht, hrows⟩ := density_eq pts n hn
  obtain ⟨_, hx⟩ := range_spec (pts.map fun q => q.1)
  obtain ⟨_, hy⟩ := range_spec (pts.map fun q => q.2)
  refine ⟨img, h, by simp [hrows], ?_, ?_, ?_⟩
  · intro row hrow
    rw [hrows] at hrow
    obtain ⟨j, _, rfl⟩ := List.mem_map.1 hrow
    simp
  · intro q hq
    rw [hl, hr, hb, ht]
    have h1 := hx q.1 (List.mem_map.2 ⟨q, hq, rfl⟩)
    have h2 := hy q.2 (List.mem_map.2 ⟨q, hq, rfl⟩)
    exact ⟨h1.1, h1.2, h2.1, h2.2⟩
  · intro i j hi hj cell hcell
    unfold Image.pixel
    rw [hrows]
    simp only [List.getD_eq_getElem?_getD, List.getElem?_map, List.getElem?_range hj, List.getElem?_range hi, Option.map_some, Option.getD_some]
    refine List.countP_congr fun q hq => ?_
    rw [hcell, hl, hr, hb, ht, inStrip_iff, inStrip_iff, Bool.and_eq_true, decide_eq_true_iff, decide_eq_true_iff]
    rw [edgesUpTo_iff _ n hn q.1 (hx q.1 (List.mem_map.2 ⟨q, hq, rfl⟩)).2 i hi, edgesUpTo_iff _ n hn q.2 (hy q.2 (List.mem_map.2 ⟨q, hq, rfl⟩)).2 j hj]

example : ∃ img, density [(0, 1), (2, 5), (2, 4)] (2 : Nat) = .ok img ∧ img.pixel 1 1 = 2 := by
  obtain ⟨img, h, hl, hr, hb, ht, _⟩ := density_eq [(0, 1), (2, 5), (2, 4)] 2 (by norm_num)
  obtain ⟨img', h', _, _, _, hc⟩ := density_cell [(0, 1), (2, 5), (2, 4)] 2 (by norm_num)
  rw [h] at h'
  cases h'
  have e1 : img.left = 0 := by rw [hl]; norm_num [histRange, minOf, maxOf]
  have e2 : img.right = 2 := by rw [hr]; norm_num [histRange, minOf, maxOf]
  have e3 : img.bottom = 1 := by rw [hb]; norm_num [histRange, minOf, maxOf]
  have e4 : img.top = 5 := by rw [ht]; norm_num [histRange, minOf, maxOf]
  classical
  have := hc 1 1 (by norm_num) (by norm_num) (fun q => decide (InStrip img.left img.right 2 1 q.1 ∧ InStrip img.bottom img.top 2 1 q.2)) (by simp)
  refine ⟨img, h, ?_⟩
  rw [this, e1, e2, e3, e4]
  norm_num [List.countP_cons, InStrip]

theorem sum_counts_and {α : Type} (A : α → Bool) (f : α → Nat) (m : Nat) (data : List α) (h : ∀ x ∈ data, f x < m) :
    ((List.range m).map fun k => data.countP fun x => A x && decide (f x = k)).sum = data.countP A := by
  have := sum_counts f m (data.filter A) (fun x hx => h x (List.mem_filter.1 hx).1)
  rw [List.countP_eq_length_filter, ← this]
  refine congrArg List.sum (List.map_congr_left fun k _ => ?_)
  rw [List.countP_filter]
  congr 1
  funext x
  exact Bool.and_comm _ _

/-- The number of edges not above a number is one more than its bin. -/
theorem edgesUpTo_eq (data : List ℝ) (n : Nat) (hn : 0 < n) (x : ℝ) (hx : x ∈ data) :
    edgesUpTo (edgesOf data n) x = binOf (histRange data) n x + 1 := by
  obtain ⟨hr, hd⟩ := range_spec data
  have hlt := binOf_lt (histRange data) hr n hn x (hd x hx)
  rw [edgesUpTo_iff data n hn x (hd x hx).2 _ hlt, ← binOf_iff _ hr n hn x (hd x hx) _ hlt]

/-- The count of one cell in terms of the bins of the coordinates. -/
theorem pixel_bins (pts : List (ℝ × ℝ)) (n : Nat) (hn : 0 < n) (img : Image) (h : density pts n = .ok img) (i j : Nat) (hi : i < n) (hj : j < n) :
    img.pixel i j = pts.countP fun q => decide (binOf (histRange (pts.map fun q => q.1)) n q.1 = i) && decide (binOf (histRange (pts.map fun q => q.2)) n q.2 = j) := by
  obtain ⟨img', h', _, _, _, _, hrows⟩ := density_eq pts n hn
  rw [h] at h'
  cases h'
  unfold Image.pixel
  rw [hrows]
  simp only [List.getD_eq_getElem?_getD, List.getElem?_map, List.getElem?_range hj, List.getElem?_range hi, Option.map_some, Option.getD_some]
  refine List.countP_congr fun q hq => ?_
  rw [edgesUpTo_eq _ n hn q.1 (List.mem_map.2 ⟨q, hq, rfl⟩), edgesUpTo_eq _ n hn q.2 (List.mem_map.2 ⟨q, hq, rfl⟩)]
  simp

theorem bins_lt1 (pts : List (ℝ × ℝ)) (n : Nat) (hn : 0 < n) : ∀ q ∈ pts, binOf (histRange (pts.map fun q => q.1)) n q.1 < n := by
  intro q hq
  obtain ⟨hr, hd⟩ := range_spec (pts.map fun q => q.1)
  have hm : q.1 ∈ pts.map fun q => q.1 := List.mem_map.2 ⟨q, hq, rfl⟩
  exact binOf_lt _ hr n hn _ (hd _ hm)

theorem bins_lt2 (pts : List (ℝ × ℝ)) (n : Nat) (hn : 0 < n) : ∀ q ∈ pts, binOf (histRange (pts.map fun q => q.2)) n q.2 < n := by
  intro q hq
  obtain ⟨hr, hd⟩ := range_spec (pts.map fun q => q.2)
  have hm : q.2 ∈ pts.map fun q => q.2 := List.mem_map.2 ⟨q, hq, rfl⟩
  exact binOf_lt _ hr n hn _ (hd _ hm)

theorem column_sum (pts : List (ℝ × ℝ)) (n : Nat) (hn : 0 < n) (img : Image) (h : density pts n = .ok img) (i : Nat) (hi : i < n) :
    ((List.range n).map fun j => img.pixel i j).sum = pts.countP fun q => decide (binOf (histRange (pts.map fun q => q.1)) n q.1 = i) := by
  have hb := bins_lt2 pts n hn
  have hp : ∀ j, j < n → img.pixel i j = _ := fun j hj => pixel_bins pts n hn img h i j hi hj
  generalize histRange (pts.map fun q => q.1) = r1 at *
  generalize histRange (pts.map fun q => q.2) = r2 at *
  rw [← sum_counts_and (fun q : ℝ × ℝ => decide (binOf r1 n q.1 = i)) (fun q : ℝ × ℝ => binOf r2 n q.2) n pts hb]
  exact congrArg List.sum (List.map_congr_left fun j hj => hp j (List.mem_range.1 hj))

theorem row_sum (pts : List (ℝ × ℝ)) (n : Nat) (hn : 0 < n) (img : Image) (h : density pts n = .ok img) (j : Nat) (hj : j < n) :
    ((List.range n).map fun i => img.pixel i j).sum = pts.countP fun q => decide (binOf (histRange (pts.map fun q => q.2)) n q.2 = j) := by
  have hb := bins_lt1 pts n hn
  have hp : ∀ i, i < n → img.pixel i j = _ := fun i hi => pixel_bins pts n hn img h i j hi hj
  generalize histRange (pts.map fun q => q.1) = r1 at *
  generalize histRange (pts.map fun q => q.2) = r2 at *
  rw [← sum_counts_and (fun q : ℝ × ℝ => decide (binOf r2 n q.2 = j)) (fun q : ℝ × ℝ => binOf r1 n q.1) n pts hb]
  refine congrArg List.sum (List.map_congr_left fun i hi => ?_)
  rw [hp i (List.mem_range.1 hi)]
  congr 1
  funext q
  exact Bool.and_comm _ _

/-- **C111, total.** Every particle is counted exactly once. -/
theorem density_total (pts : List (ℝ × ℝ)) (n : Nat) (hn : 0 < n) (img : Image) (h : density pts n = .ok img) :
    (img.rows.map List.sum).sum = pts.length := by
  obtain ⟨img', h', _, _, _, _, hrows⟩ := density_eq pts n hn
  rw [h] at h'
  cases h'
  have hlen : img.rows.length = n := by simp [hrows]
  have : img.rows.map List.sum = (List.range n).map fun j => pts.countP fun q => decide (binOf (histRange (pts.map fun q => q.2)) n q.2 = j) := by
    rw [hrows, List.map_map]
    refine List.map_congr_left fun j hj => ?_
    rw [← row_sum pts n hn img h j (List.mem_range.1 hj)]
    simp only [Function.comp]
    congr 1
    refine List.map_congr_left fun i hi => ?_
    unfold Image.pixel
    rw [hrows]
    simp only [List.getD_eq_getElem?_getD, List.getElem?_map, List.getElem?_range (List.mem_range.1 hj), List.getElem?_range (List.mem_range.1 hi), Option.map_some, Option.getD_some]
  rw [this]
  exact sum_counts _ n pts (bins_lt2 pts n hn)

example : ∃ img, density [(0, 1), (2, 5), (2, 4)] (2 : Nat) = .ok img ∧ (img.rows.map List.sum).sum = 3 := by
  obtain ⟨img, h, _⟩ := density_eq [(0, 1), (2, 5), (2, 4)] 2 (by norm_num)
  exact ⟨img, h, density_total _ 2 (by norm_num) img h⟩

/-- **C111, refusal.** Without bins ValueError is raised. -/
theorem density_refuses (pts : List (ℝ × ℝ)) (n : Int) (hn : n < 1) : density pts n = .error .valueError := by
  unfold density histogram2d
  rw [if_pos hn]

example : density [(0, 1), (2, 5)] 0 = .error .valueError := density_refuses _ 0 (by norm_num)

/-- **C111, borders.** If the coordinates are not all the same the picture ends at the outermost particles. -/
theorem density_borders (pts : List (ℝ × ℝ)) (n : Nat) (hn : 0 < n) (a b c d : ℝ × ℝ) (ha : a ∈ pts) (hb : b ∈ pts) (hab : a.1 ≠ b.1) (hc : c ∈ pts) (hd : d ∈ pts)
    (hcd : c.2 ≠ d.2) : ∃ img, density pts n = .ok img ∧
      (∃ q ∈ pts, img.left = q.1) ∧ (∃ q ∈ pts, img.right = q.1) ∧ (∃ q ∈ pts, img.bottom = q.2) ∧ ∃ q ∈ pts, img.top = q.2 := by
  have key : ∀ f : ℝ × ℝ → ℝ, ∀ a ∈ pts, ∀ b ∈ pts, f a ≠ f b → (∃ q ∈ pts, (histRange (pts.map f)).1 = f q) ∧ ∃ q ∈ pts, (histRange (pts.map f)).2 = f q := by
    intro f a ha b hb hne
    cases pts with
    | nil => simp at ha
    | cons p l =>
      have hm : ∀ q ∈ p :: l, f q ∈ f p :: l.map f := fun q hq => List.mem_map (l := p :: l).2 ⟨q, hq, rfl⟩
      have hne' : minOf (f p) (l.map f) ≠ maxOf (f p) (l.map f) := by
        intro he
        have h1 := minOf_le _ _ _ (hm a ha)
        have h2 := minOf_le _ _ _ (hm b hb)
        have h3 := le_maxOf _ _ _ (hm a ha)
        have h4 := le_maxOf _ _ _ (hm b hb)
        exact hne (by linarith)
      have he : histRange ((p :: l).map f) = (minOf (f p) (l.map f), maxOf (f p) (l.map f)) := by
        rw [List.map_cons, histRange, if_neg hne']
      rw [he]
      obtain ⟨q1, h1, e1⟩ := List.mem_map (l := p :: l).1 (minOf_mem (f p) (l.map f))
      obtain ⟨q2, h2, e2⟩ := List.mem_map (l := p :: l).1 (maxOf_mem (f p) (l.map f))
      exact ⟨⟨q1, h1, e1.symm⟩, ⟨q2, h2, e2.symm⟩⟩
  obtain ⟨img, h, e1, e2, e3, e4, _⟩ := density_eq pts n hn
  obtain ⟨k1, k2⟩ := key (fun q => q.1) a ha b hb hab
  obtain ⟨k3, k4⟩ := key (fun q => q.2) c hc d hd hcd
  exact ⟨img, h, by rw [e1]; exact k1, by rw [e2]; exact k2, by rw [e3]; exact k3, by rw [e4]; exact k4⟩

example : ∃ img, density [(0, 1), (2, 5), (2, 4)] (3 : Nat) = .ok img ∧ (img.left = 0 ∨ img.left = 2) := by
  obtain ⟨img, h, ⟨q, hq, e⟩, _⟩ := density_borders [(0, 1), (2, 5), (2, 4)] 3 (by norm_num) (0, 1) (2, 5) (0, 1) (2, 4) (by simp) (by simp) (by norm_num) (by simp)
    (by simp) (by norm_num)
  refine ⟨img, h, ?_⟩
  simp only [List.mem_cons, List.not_mem_nil, or_false] at hq
  rcases hq with rfl | rfl | rfl
  · exact .inl e
  · exact .inr e
  · exact .inr e

/-! ## Curves beside the pictures -/

/-- One strip of `n` consists of two strips of `2 n`. -/
theorem bins_double (r : ℝ × ℝ) (hr : r.1 < r.2) (n : Nat) (hn : 0 < n) (x : ℝ) (hx : r.1 ≤ x ∧ x ≤ r.2) (k : Nat) (hk : k < n) :
    binOf r n x = k ↔ binOf r (2 * n) x = 2 * k ∨ binOf r (2 * n) x = 2 * k + 1 := by
  have e : ∀ j : Nat, edge r (2 * n) (2 * j) = edge r n j := by
    intro j
    unfold edge
    have : (n : ℝ) ≠ 0 := by exact_mod_cast hn.ne'
    push_cast
    field_simp
  rw [binOf_iff r hr n hn x hx k hk, binOf_iff r hr (2 * n) (by omega) x hx _ (by omega), binOf_iff r hr (2 * n) (by omega) x hx _ (by omega)]
  unfold InBin
  have e0 := e k
  have e1 := e (k + 1)
  have e1' : 2 * (k + 1) = 2 * k + 1 + 1 := by ring
  rw [e1'] at e1
  rw [e0, e1]
  have m0 := edge_mono r hr (2 * n) (2 * k)
  have m1 := edge_mono r hr (2 * n) (2 * k + 1)
  rw [e0] at m0
  rw [e1] at m1
  constructor
  · rintro ⟨h1, h2⟩
    by_cases hc : x < edge r (2 * n) (2 * k + 1)
    · exact .inl ⟨h1, .inl hc⟩
    · refine .inr ⟨not_lt.1 hc, ?_⟩
      rcases h2 with h2 | h2
      · exact .inl h2
      · exact .inr ⟨by omega, h2.2⟩
  · rintro (⟨h1, h2⟩ | ⟨h1, h2⟩)
    · rcases h2 with h2 | h2
      · exact ⟨h1, .inl (lt_of_lt_of_le h2 m1)⟩
      · omega
    · refine ⟨le_trans m0 h1, ?_⟩
      rcases h2 with h2 | h2
      · exact .inl h2
      · exact .inr ⟨by omega, h2.2⟩

theorem count_double {α : Type} (pts : List α) (f : α → ℝ) (n : Nat) (hn : 0 < n) (k : Nat) (hk : k < n) :
    (pts.countP fun q => decide (binOf (histRange (pts.map f)) n (f q) = k)) =
      (pts.countP fun q => decide (binOf (histRange (pts.map f)) (2 * n) (f q) = 2 * k)) +
        pts.countP fun q => decide (binOf (histRange (pts.map f)) (2 * n) (f q) = 2 * k + 1) := by
  obtain ⟨hr, hd⟩ := range_spec (pts.map f)
  set r := histRange (pts.map f)
  have key : ∀ q ∈ pts, binOf r n (f q) = k ↔ binOf r (2 * n) (f q) = 2 * k ∨ binOf r (2 * n) (f q) = 2 * k + 1 :=
    fun q hq => bins_double r hr n hn (f q) (hd _ (List.mem_map.2 ⟨q, hq, rfl⟩)) k hk
  clear hd
  clear_value r
  induction pts with
  | nil => rfl
  | cons q l ih =>
    have h1 := ih fun q hq => key q (by simp [hq])
    have h2 := key q (by simp)
    simp only [List.countP_cons, h1, decide_eq_true_eq]
    by_cases ha : binOf r (2 * n) (f q) = 2 * k
    · have hb : ¬ binOf r (2 * n) (f q) = 2 * k + 1 := by omega
      rw [if_pos (h2.2 (.inl ha)), if_pos ha, if_neg hb]
      omega
    · by_cases hb : binOf r (2 * n) (f q) = 2 * k + 1
      · rw [if_pos (h2.2 (.inr hb)), if_neg ha, if_pos hb]
        omega
      · rw [if_neg (fun h => (h2.1 h).elim ha hb), if_neg ha, if_neg hb]
        omega

end Verif.Plot
