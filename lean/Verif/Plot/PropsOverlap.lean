import Verif.Plot.PropsProfile

/-!
C64 for all positions that do not decrease: when two rectangles of `plot_profile` (rsplot/util.py:69-109) overlap.
-/

namespace Verif.Plot

/-- The point is strictly between the two sides of the rectangle (its width may be negative). -/
def Rect.Inside (r : Rect) (x : ℝ) : Prop := r.x < x ∧ x < r.x + r.width ∨ r.x + r.width < x ∧ x < r.x

/-- Two rectangles have common points. -/
def Overlap (r q : Rect) : Prop := ∃ x, r.Inside x ∧ q.Inside x

/-- Strictly between two positions. -/
def Between (a b y : ℝ) : Prop := a < y ∧ y < b ∨ b < y ∧ y < a

theorem inside_rect {scale height a b : ℝ} (hs : scale ≠ 0) {c : String} (x : ℝ) :
    Rect.Inside ⟨a * scale, -height / 2, b * scale - a * scale, height, c⟩ x ↔ Between a b (x / scale) := by
  unfold Rect.Inside Between
  simp only [add_sub_cancel]
  rcases lt_or_gt_of_ne hs with h | h
  · simp only [lt_div_iff_of_neg h, div_lt_iff_of_neg h]
    tauto
  · simp only [lt_div_iff₀ h, div_lt_iff₀ h]

theorem overlap_rect {scale height a b a' b' : ℝ} (hs : scale ≠ 0) {c c' : String} :
    Overlap ⟨a * scale, -height / 2, b * scale - a * scale, height, c⟩ ⟨a' * scale, -height / 2, b' * scale - a' * scale, height, c'⟩ ↔
      ∃ y, Between a b y ∧ Between a' b' y := by
  unfold Overlap
  simp only [inside_rect hs]
  constructor
  · rintro ⟨x, h⟩; exact ⟨x / scale, h⟩
  · rintro ⟨y, h⟩
    refine ⟨y * scale, ?_⟩
    rw [mul_div_cancel_right₀ _ hs]
    exact h

/-- The magnets of a line that begins at `a`: start, end, colour. -/
noncomputable def spans : ℝ → List (ℝ × String) → List (ℝ × ℝ × String)
  | _, [] => []
  | a, (b, type) :: rows => ((magnetColor type).map fun c => (a, b, c)).toList ++ spans b rows

theorem rects_spans (scale height : ℝ) : ∀ (rows : List (ℝ × String)) (a : ℝ),
    rectsFrom scale height a rows = (spans a rows).map fun s => ⟨s.1 * scale, -height / 2, s.2.1 * scale - s.1 * scale, height, s.2.2⟩ := by
  intro rows
  induction rows with
  | nil => intro a; rfl
  | cons row rows ih =>
    intro a
    obtain ⟨b, t⟩ := row
    simp only [rectsFrom, spans, List.map_append, ih, rectOf]
    cases magnetColor t <;> rfl

/-- The spans of positions that do not decrease follow each other. -/
theorem spans_sorted : ∀ (rows : List (ℝ × String)) (a : ℝ), List.Pairwise (· ≤ ·) (a :: rows.map Prod.fst) →
    (∀ s ∈ spans a rows, a ≤ s.1 ∧ s.1 ≤ s.2.1) ∧ (spans a rows).Pairwise fun s s' => s.2.1 ≤ s'.1 := by
  intro rows
  induction rows with
  | nil => intro a _; simp [spans]
  | cons row rows ih =>
    intro a hp
    obtain ⟨b, t⟩ := row
    simp only [List.map_cons] at hp
    rw [List.pairwise_cons] at hp
    obtain ⟨ha, hp⟩ := hp
    have hab : a ≤ b := ha b (by simp)
    obtain ⟨h1, h2⟩ := ih b hp
    simp only [spans]
    cases magnetColor t with
    | none =>
      simp only [Option.map_none, Option.toList_none, List.nil_append]
      exact ⟨fun s hs => ⟨le_trans hab (h1 s hs).1, (h1 s hs).2⟩, h2⟩
    | some c =>
      simp only [Option.map_some, Option.toList_some, List.singleton_append, List.pairwise_cons, List.mem_cons]
      refine ⟨fun s hs => ?_, fun s hs => (h1 s hs).1, h2⟩
      rcases hs with rfl | hs
      · exact ⟨le_refl _, hab⟩
      · exact ⟨le_trans hab (h1 s hs).1, (h1 s hs).2⟩

theorem spans_mem : ∀ (rows : List (ℝ × String)) (a : ℝ) (s : ℝ × ℝ × String), s ∈ spans a rows ↔
    ∃ (before : List (ℝ × String)) (u t : String) (after : String × List (ℝ × String)),
      (a, u) :: rows = before ++ (s.1, t) :: (s.2.1, after.1) :: after.2 ∧ magnetColor after.1 = some s.2.2 := by
  intro rows
  induction rows with
  | nil =>
    intro a s
    simp only [spans, List.not_mem_nil, false_iff, not_exists, not_and]
    intro before u t after h
    have := congrArg List.length h
    simp at this
    omega
  | cons row rows ih =>
    intro a s
    obtain ⟨b, t⟩ := row
    simp only [spans, List.mem_append, ih b s]
    constructor
    · rintro (h | ⟨before, u, t', after, h, hc⟩)
      · cases hm : magnetColor t with
        | none => rw [hm] at h; simp at h
        | some c =>
          rw [hm] at h
          simp only [Option.map_some, Option.toList_some, List.mem_singleton] at h
          subst h
          exact ⟨[], "", "", (t, rows), rfl, hm⟩
      · cases before with
        | nil =>
          simp only [List.nil_append, List.cons.injEq, Prod.mk.injEq] at h
          obtain ⟨⟨h1, _⟩, h2⟩ := h
          exact ⟨[(a, "")], "", t, after, by rw [h2, h1]; rfl, hc⟩
        | cons x before =>
          simp only [List.cons_append, List.cons.injEq] at h
          exact ⟨(a, "") :: (b, t) :: before, "", t', after, by rw [h.2]; rfl, hc⟩
    · rintro ⟨before, u, t', after, h, hc⟩
      cases before with
      | nil =>
        simp only [List.nil_append, List.cons.injEq, Prod.mk.injEq] at h
        obtain ⟨⟨h1, _⟩, ⟨h2, h3⟩, _⟩ := h
        refine .inl ?_
        rw [h3, hc, h1, h2]
        simp
      | cons x before =>
        simp only [List.cons_append, List.cons.injEq] at h
        cases before with
        | nil =>
          simp only [List.nil_append, List.cons.injEq, Prod.mk.injEq] at h
          obtain ⟨_, ⟨h1, h2⟩, h3⟩ := h
          exact .inr ⟨[], t, t', after, by rw [h1, h3, h2]; rfl, hc⟩
        | cons y before =>
          simp only [List.cons_append, List.cons.injEq] at h
          exact .inr ⟨(b, t) :: before, t, t', after, by rw [h.2.2]; rfl, hc⟩

/-- **C64, exactly.** For positions that do not decrease and a scale that is not zero (it may be negative), two rectangles overlap if and only if
the line begins with a magnet that ends before zero and there is a later magnet, of positive length, that begins before zero. -/
theorem overlap_iff (p₁ : ℝ) (t₁ : String) (rows : List (ℝ × String)) (scale height : ℝ) (hs : scale ≠ 0)
    (hm : (((p₁, t₁) :: rows).map Prod.fst).Pairwise (· ≤ ·)) :
    ∃ p, plotProfile ((p₁, t₁) :: rows) scale height = .ok p ∧
      (p.rects.Pairwise (fun r q => ¬ Overlap r q) ↔
        ¬ (p₁ < 0 ∧ (magnetColor t₁).isSome ∧ ∃ before a u b t after, (p₁, t₁) :: rows = before ++ (a, u) :: (b, t) :: after ∧
          (magnetColor t).isSome ∧ a < 0 ∧ a < b)) := by
  obtain ⟨p, hp, h1, _⟩ := rectangles ((p₁, t₁) :: rows) (by simp) scale height
  refine ⟨p, hp, ?_⟩
  rw [h1, rects_spans, List.pairwise_map]
  simp only [overlap_rect hs, spans]
  obtain ⟨h2, h3⟩ := spans_sorted rows p₁ hm
  have hrest : (spans p₁ rows).Pairwise fun s s' => ¬ ∃ y, Between s.1 s.2.1 y ∧ Between s'.1 s'.2.1 y := by
    refine List.Pairwise.imp_of_mem ?_ h3
    rintro s s' hs1 hs2 hle ⟨y, hy1, hy2⟩
    have a1 := (h2 s hs1).2
    have a2 := (h2 s' hs2).2
    unfold Between at hy1 hy2
    rcases hy1 with hy1 | hy1 <;> rcases hy2 with hy2 | hy2 <;> linarith [hy1.1, hy1.2, hy2.1, hy2.2]
  cases hc : magnetColor t₁ with
  | none =>
    simp only [Option.map_none, Option.toList_none, List.nil_append, Option.isSome_none]
    simp only [Bool.false_eq_true, false_and, and_false, not_false_eq_true, iff_true]
    exact hrest
  | some c =>
    simp only [Option.map_some, Option.toList_some, List.singleton_append, List.pairwise_cons, Option.isSome_some]
    constructor
    · rintro ⟨hx, _⟩ ⟨hneg, _, before, a, u, b, t, after, he, ht, ha, hab⟩
      obtain ⟨c', hc'⟩ := Option.isSome_iff_exists.1 ht
      have hmem : (a, b, c') ∈ spans p₁ rows := by
        rw [spans_mem]
        cases before with
        | nil =>
          simp only [List.nil_append, List.cons.injEq, Prod.mk.injEq] at he
          exact ⟨[], t₁, u, (t, after), by rw [he.1.1, he.1.2, he.2]; rfl, hc'⟩
        | cons x before =>
          exact ⟨x :: before, t₁, u, (t, after), he, hc'⟩
      have hpa := (h2 _ hmem).1
      simp only at hpa
      refine hx _ hmem ⟨(a + min b 0) / 2, ?_, ?_⟩
      · refine .inr ⟨?_, ?_⟩
        · have : a < min b 0 := lt_min hab ha
          linarith
        · have : min b 0 ≤ 0 := min_le_right _ _
          linarith
      · refine .inl ⟨?_, ?_⟩
        · have : a < min b 0 := lt_min hab ha
          linarith
        · have : min b 0 ≤ b := min_le_left _ _
          simp only
          linarith
    · intro hno
      refine ⟨?_, hrest⟩
      rintro ⟨a, b, c'⟩ hmem ⟨y, hy1, hy2⟩
      apply hno
      have hpa := (h2 _ hmem)
      simp only at hpa hy2
      have hy1' : p₁ < y ∧ y < 0 ∧ p₁ < 0 := by
        rcases hy1 with h | h
        · rcases hy2 with h' | h'
          · exact absurd hpa.1 (by linarith [h.1, h.2, h'.1])
          · exact absurd hpa.2 (by linarith [h'.1, h'.2])
        · exact ⟨h.1, h.2, h.1.trans h.2⟩
      have hy2' : a < y ∧ y < b := by
        rcases hy2 with h | h
        · exact h
        · exact absurd hpa.2 (by linarith [h.1, h.2])
      obtain ⟨before, u, t, after, he, hcol⟩ := (spans_mem rows p₁ _).1 hmem
      refine ⟨hy1'.2.2, trivial, ?_⟩
      cases before with
      | nil =>
        simp only [List.nil_append, List.cons.injEq, Prod.mk.injEq] at he
        exact ⟨[], a, t₁, b, after.1, after.2, by rw [he.1.1, he.2]; rfl, by rw [hcol]; rfl, hy2'.1.trans hy1'.2.1, hy2'.1.trans hy2'.2⟩
      | cons x before =>
        simp only [List.cons_append, List.cons.injEq] at he
        exact ⟨(p₁, t₁) :: before, a, t, b, after.1, after.2, by rw [he.2]; rfl, by rw [hcol]; rfl, hy2'.1.trans hy1'.2.1, hy2'.1.trans hy2'.2⟩

/-- **C64 is false for lines that begin before zero.** -/
theorem overlap_fails (a b : ℝ) (ha : a < 0) (hab : a < b) (scale height : ℝ) (hs : scale ≠ 0) :
    ∃ p, plotProfile [(a, "QUAD"), (b, "SBEND")] scale height = .ok p ∧ ¬ p.rects.Pairwise (fun r q => ¬ Overlap r q) := by
  obtain ⟨p, hp, h⟩ := overlap_iff a "QUAD" [(b, "SBEND")] scale height hs (by simpa using hab.le)
  refine ⟨p, hp, fun hpw => h.1 hpw ⟨ha, by decide, [], a, "QUAD", b, "SBEND", [], rfl, by decide, ha, hab⟩⟩

example : ∃ p, plotProfile [(-1, "QUAD"), (1, "SBEND")] 2 1 = .ok p ∧ ¬ p.rects.Pairwise (fun r q => ¬ Overlap r q) :=
  overlap_fails (-1) 1 (by norm_num) (by norm_num) 2 1 (by norm_num)

example : ∃ p, plotProfile [(1, "QUAD"), (3, "SBEND")] 2 1 = .ok p ∧ p.rects.Pairwise (fun r q => ¬ Overlap r q) := by
  obtain ⟨p, hp, h⟩ := overlap_iff 1 "QUAD" [(3, "SBEND")] 2 1 (by norm_num) (by norm_num)
  exact ⟨p, hp, h.2 fun hn => absurd hn.1 (by norm_num)⟩

end Verif.Plot
