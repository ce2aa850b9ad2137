import Verif.Plot.Profile
import Mathlib.Tactic.Linarith
import Mathlib.Tactic.Ring
import Mathlib.Tactic.NormNum

/-!
# Properties C64 and C102: magnet profile
-/

namespace Verif.Plot

/-! ## Types -/

theorem lookup_cons_eq {α : Type} (a b : String) (v : α) (l : List (String × α)) :
    List.lookup a ((b, v) :: l) = if a = b then some v else List.lookup a l := by
  simp only [List.lookup]
  by_cases h : a = b
  · simp [h]
  · rw [if_neg h]
    have : (a == b) = false := by simpa using h
    rw [this]

theorem lookup_invertList (key t : String) : ∀ (l : List String) (d : List (String × String)),
    (invertList key l d).lookup t = if t ∈ l then some key else d.lookup t := by
  intro l
  induction l with
  | nil => intro d; simp [invertList]
  | cons el l ih =>
    intro d
    rw [invertList, ih, lookup_cons_eq]
    by_cases h1 : t ∈ l
    · simp [h1]
    · by_cases h2 : t = el
      · simp [h2]
      · simp [h1, h2]

/-- **C102, inversion.** In the inverted dict a type has the last key whose list has the type. -/
theorem inverted (t : String) : ∀ (m : TypeMap) (d : List (String × String)),
    (invertFrom m d).lookup t = (((m.filter fun e => decide (t ∈ e.2)).getLast?).map Prod.fst).or (d.lookup t) := by
  intro m
  induction m with
  | nil => intro d; simp [invertFrom]
  | cons e m ih =>
    intro d
    obtain ⟨k, l⟩ := e
    rw [invertFrom, ih, lookup_invertList]
    by_cases h : t ∈ l
    · rw [if_pos h, List.filter_cons_of_pos (by simpa using h), List.getLast?_cons]
      cases (m.filter fun e => decide (t ∈ e.2)).getLast? <;> rfl
    · rw [if_neg h, List.filter_cons_of_neg (by simpa using h)]

/-- The types of elegant that are drawn, with their colours. -/
def magnetColor (t : String) : Option String :=
  if t = "QUAD" ∨ t = "KQUAD" then some "tab:green"
  else if t = "SBEND" ∨ t = "CSBEND" ∨ t = "CSRCSBEND" ∨ t = "RBEND" ∨ t = "SBEN" then some "tab:red"
  else if t = "SEXT" then some "tab:blue"
  else if t = "RFCW" ∨ t = "RFCA" then some "tab:orange"
  else if t = "OCTU" ∨ t = "KOCT" then some "tab:purple"
  else none

/-- **C102, types.** Every type has its colour, and the colour of every key is known. -/
theorem types_colors (t : String) : ((invertMapping elementMappings).lookup t).bind (fun k => elementColors.lookup k) = magnetColor t ∧
    (∀ k, (invertMapping elementMappings).lookup t = some k → ∃ c, elementColors.lookup k = some c) := by
  have h : (invertMapping elementMappings).lookup t =
      if t = "QUAD" ∨ t = "KQUAD" then some "QUAD"
      else if t = "SBEND" ∨ t = "CSBEND" ∨ t = "CSRCSBEND" ∨ t = "RBEND" ∨ t = "SBEN" then some "SBEND"
      else if t = "SEXT" then some "SEXT"
      else if t = "RFCW" ∨ t = "RFCA" then some "RFCW"
      else if t = "OCTU" ∨ t = "KOCT" then some "OCT"
      else none := by
    unfold invertMapping elementMappings
    simp only [invertFrom, lookup_invertList, List.mem_cons, List.not_mem_nil, or_false, List.lookup]
    by_cases h1 : t = "QUAD" ∨ t = "KQUAD"
    · rcases h1 with rfl | rfl <;> decide
    · rw [if_neg h1]
      by_cases h2 : t = "SBEND" ∨ t = "CSBEND" ∨ t = "CSRCSBEND" ∨ t = "RBEND" ∨ t = "SBEN"
      · rcases h2 with rfl | rfl | rfl | rfl | rfl <;> decide
      · rw [if_neg h2]
        by_cases h3 : t = "SEXT"
        · subst h3; decide
        · rw [if_neg h3]
          by_cases h4 : t = "RFCW" ∨ t = "RFCA"
          · rcases h4 with rfl | rfl <;> decide
          · rw [if_neg h4]
            by_cases h5 : t = "OCTU" ∨ t = "KOCT"
            · rcases h5 with rfl | rfl <;> decide
            · rw [if_neg h5, if_neg h5, if_neg h4, if_neg h3, if_neg h2, if_neg (by rw [or_comm]; exact h1)]
  rw [h]
  unfold magnetColor
  refine ⟨?_, fun k => ?_⟩
  · split_ifs <;> decide
  · split_ifs <;> intro hk <;> cases hk <;> exact ⟨_, rfl⟩

/-! ## Rectangles -/

/-- The rectangle of an element of this type between two positions, if it is drawn. -/
noncomputable def rectOf (scale height a b : ℝ) (type : String) : Option Rect :=
  (magnetColor type).map fun c => ⟨a * scale, -height / 2, b * scale - a * scale, height, c⟩

/-- The rectangles of all elements: each one begins where the element before it ends, the first one at zero. -/
noncomputable def rectsFrom (scale height : ℝ) : ℝ → List (ℝ × String) → List Rect
  | _, [] => []
  | a, (b, type) :: rows => (rectOf scale height a b type).toList ++ rectsFrom scale height b rows

/-- The additional lines: from the start of every magnet to the scaled start. -/
noncomputable def linesFrom (scale : ℝ) : ℝ → List (ℝ × String) → List Line
  | _, [] => []
  | a, (b, type) :: rows => ((magnetColor type).map fun c => (⟨a, a * scale, 0, c⟩ : Line)).toList ++ linesFrom scale b rows

theorem loop_eq (scale height : ℝ) : ∀ (rows : List (ℝ × String)) (s : ℝ) (p : Profile),
    profileLoop scale height (invertMapping elementMappings) rows s p =
      .ok ⟨p.lines ++ linesFrom scale s rows, p.rects ++ rectsFrom scale height s rows⟩ := by
  intro rows
  induction rows with
  | nil => intro s p; simp [profileLoop, linesFrom, rectsFrom]
  | cons row rows ih =>
    intro s p
    obtain ⟨b, t⟩ := row
    obtain ⟨h1, h2⟩ := types_colors t
    unfold profileLoop
    cases hl : (invertMapping elementMappings).lookup t with
    | none =>
      rw [hl] at h1
      simp only [Option.bind_none] at h1
      simp only
      rw [ih]
      simp [linesFrom, rectsFrom, rectOf, ← h1]
    | some k =>
      obtain ⟨c, hc⟩ := h2 k hl
      rw [hl, Option.bind_some, hc] at h1
      simp only [hc]
      rw [ih]
      simp [linesFrom, rectsFrom, rectOf, ← h1]

/-- **C64, rectangles.** The rectangles are those of the magnets, from the end of the element before to the end of the element. -/
theorem rectangles (rows : List (ℝ × String)) (hr : rows ≠ []) (scale height : ℝ) :
    ∃ p, plotProfile rows scale height = .ok p ∧ p.rects = rectsFrom scale height 0 rows ∧
      p.lines.head? = some ⟨0, (rows.getLast hr).1 * scale, 0, "k"⟩ := by
  unfold plotProfile
  rw [List.getLast?_eq_some_getLast hr]
  simp only
  rw [loop_eq]
  exact ⟨_, rfl, by simp, by simp⟩

theorem rects_bounds (scale height : ℝ) (hs : 0 ≤ scale) : ∀ (rows : List (ℝ × String)) (a : ℝ),
    List.Pairwise (· ≤ ·) (a :: rows.map Prod.fst) →
    (∀ r ∈ rectsFrom scale height a rows, a * scale ≤ r.x ∧ 0 ≤ r.width ∧ r.x + r.width ≤ ((a :: rows.map Prod.fst).getLast (by simp)) * scale) ∧
    (rectsFrom scale height a rows).Pairwise (fun r q => r.x + r.width ≤ q.x) := by
  intro rows
  induction rows with
  | nil => intro a _; simp [rectsFrom]
  | cons row rows ih =>
    intro a hp
    obtain ⟨b, t⟩ := row
    simp only [List.map_cons] at hp ⊢
    rw [List.pairwise_cons] at hp
    obtain ⟨ha, hp⟩ := hp
    have hab : a ≤ b := ha b (by simp)
    have habs := mul_le_mul_of_nonneg_right hab hs
    obtain ⟨h1, h2⟩ := ih b hp
    have hlast : b ≤ (b :: rows.map Prod.fst).getLast (by simp) := by
      rw [List.pairwise_cons] at hp
      rcases List.mem_cons.1 (List.getLast_mem (l := b :: rows.map Prod.fst) (by simp)) with h | h
      · rw [h]
      · exact hp.1 _ h
    have hlasts := mul_le_mul_of_nonneg_right hlast hs
    have hl2 : (a :: b :: rows.map Prod.fst).getLast (by simp) = (b :: rows.map Prod.fst).getLast (by simp) := by simp
    rw [hl2]
    simp only [rectsFrom, rectOf]
    cases magnetColor t with
    | none =>
      simp only [Option.map_none, Option.toList_none, List.nil_append]
      exact ⟨fun r hr => ⟨le_trans habs (h1 r hr).1, (h1 r hr).2⟩, h2⟩
    | some c =>
      simp only [Option.map_some, Option.toList_some, List.singleton_append, List.pairwise_cons, List.mem_cons]
      refine ⟨fun r hr => ?_, fun q hq => ?_, h2⟩
      · rcases hr with rfl | hr
        · exact ⟨le_refl _, by simpa using habs, by simpa using hlasts⟩
        · exact ⟨le_trans habs (h1 r hr).1, (h1 r hr).2⟩
      · have := (h1 q hq).1
        linarith

/-- **C64, no overlap.** For positions that are not negative and do not decrease, and a scale that is not negative, the rectangles are
inside the line under the elements, in order, and do not overlap. -/
theorem no_overlap (rows : List (ℝ × String)) (hr : rows ≠ []) (scale height : ℝ) (hs : 0 ≤ scale) (h0 : ∀ r ∈ rows, 0 ≤ r.1)
    (hm : (rows.map Prod.fst).Pairwise (· ≤ ·)) :
    ∃ p, plotProfile rows scale height = .ok p ∧ (∀ r ∈ p.rects, 0 ≤ r.x ∧ 0 ≤ r.width ∧ r.x + r.width ≤ (rows.getLast hr).1 * scale) ∧
      p.rects.Pairwise (fun r q => r.x + r.width ≤ q.x) := by
  obtain ⟨p, hp, h1, _⟩ := rectangles rows hr scale height
  have hpw : List.Pairwise (· ≤ ·) ((0 : ℝ) :: rows.map Prod.fst) := by
    rw [List.pairwise_cons]
    refine ⟨fun x hx => ?_, hm⟩
    obtain ⟨r, hr', rfl⟩ := List.mem_map.1 hx
    exact h0 r hr'
  obtain ⟨h2, h3⟩ := rects_bounds scale height hs rows 0 hpw
  refine ⟨p, hp, ?_, by rw [h1]; exact h3⟩
  rw [h1]
  intro r hr'
  have hl : ((0 : ℝ) :: rows.map Prod.fst).getLast (by simp) = (rows.getLast hr).1 := by
    rw [List.getLast_cons (by simpa using hr), List.getLast_map]
  have := h2 r hr'
  rw [hl] at this
  simpa using this

/-- **C102, lines.** With scale one nothing is drawn besides the line under the elements. -/
theorem lines_partial (rows : List (ℝ × String)) (scale height : ℝ) (p : Profile) (h : plotProfile rows scale height = .ok p) (hs : scale = 1) :
    ∀ l ∈ p.lines.tail, l.start = l.stop := by
  cases hr : rows.getLast? with
  | none => unfold plotProfile at h; rw [hr] at h; cases h
  | some last =>
    unfold plotProfile at h
    rw [hr] at h
    simp only at h
    rw [loop_eq] at h
    simp only [Except.ok.injEq] at h
    subst h
    simp only [List.singleton_append, List.tail_cons]
    clear hr
    generalize (0 : ℝ) = a
    induction rows generalizing a with
    | nil => intro l hl; simp [linesFrom] at hl
    | cons row rows ih =>
      obtain ⟨b, t⟩ := row
      intro l hl
      simp only [linesFrom, List.mem_append] at hl
      rcases hl with hl | hl
      · cases hc : magnetColor t with
        | none => rw [hc] at hl; simp at hl
        | some c =>
          rw [hc] at hl
          simp only [Option.map_some, Option.toList_some, List.mem_singleton] at hl
          rw [hl]
          simp [hs]
      · exact ih b l hl

/-- **C102, lines, is false.** With any other scale every magnet that starts away from zero adds a line in its colour from the start of
the magnet in metres to the scaled start, which is no part of the beamline. -/
theorem lines_fails (before rows : List (ℝ × String)) (a b : ℝ) (t u c : String) (scale height : ℝ) (ha : a ≠ 0) (hs : scale ≠ 1)
    (hc : magnetColor t = some c) :
    ∃ p, plotProfile (before ++ (a, u) :: (b, t) :: rows) scale height = .ok p ∧ (⟨a, a * scale, 0, c⟩ : Line) ∈ p.lines ∧ a ≠ a * scale := by
  unfold plotProfile
  cases hl : (before ++ (a, u) :: (b, t) :: rows).getLast? with
  | none => simp at hl
  | some last =>
    simp only
    rw [loop_eq]
    refine ⟨_, rfl, ?_, fun h => hs ?_⟩
    · refine List.mem_append_right _ ?_
      clear hl
      have : ∀ (before : List (ℝ × String)) (z : ℝ), (⟨a, a * scale, 0, c⟩ : Line) ∈ linesFrom scale z (before ++ (a, u) :: (b, t) :: rows) := by
        intro before
        induction before with
        | nil => intro z; simp [linesFrom, hc]
        | cons row before ih =>
          intro z
          obtain ⟨y, w⟩ := row
          exact List.mem_append_right _ (ih y)
      exact this before 0
    · have : a * (scale - 1) = 0 := by linarith
      rcases mul_eq_zero.1 this with h1 | h1
      · exact absurd h1 ha
      · linarith

/-- **C64, no data.** Without rows an IndexError is raised. -/
theorem profile_refuses (scale height : ℝ) : plotProfile [] scale height = .error .indexError := rfl

example : rectsFrom 1 2 0 [(1, "DRIF"), (3, "QUAD"), (4, "SBEND")] = [⟨1 * 1, -2 / 2, 3 * 1 - 1 * 1, 2, "tab:green"⟩, ⟨3 * 1, -2 / 2, 4 * 1 - 3 * 1, 2, "tab:red"⟩] := by
  simp [rectsFrom, rectOf, magnetColor]

/-! The theorems above at concrete values. -/

example : ∃ p, plotProfile [(1, "DRIF"), (3, "QUAD"), (4, "SBEND")] 1 2 = .ok p ∧ p.rects.Pairwise (fun r q => r.x + r.width ≤ q.x) ∧
    ∀ l ∈ p.lines.tail, l.start = l.stop := by
  obtain ⟨p, h1, _, h3⟩ := no_overlap [(1, "DRIF"), (3, "QUAD"), (4, "SBEND")] (by simp) 1 2 (by norm_num) (by simp) (by norm_num)
  exact ⟨p, h1, h3, lines_partial _ _ _ p h1 rfl⟩

example : ∃ p, plotProfile [(1, "DRIF"), (3, "QUAD"), (4, "SBEND")] 5 2 = .ok p ∧
    p.lines.head? = some ⟨0, ([(1, "DRIF"), (3, "QUAD"), (4, "SBEND")].getLast (by simp)).1 * 5, 0, "k"⟩ := by
  obtain ⟨p, h1, _, h3⟩ := rectangles [(1, "DRIF"), (3, "QUAD"), (4, "SBEND")] (by simp) 5 2
  exact ⟨p, h1, h3⟩

example : ∃ p, plotProfile ([] ++ (1, "DRIF") :: (3, "QUAD") :: [(4, "SBEND")]) 5 2 = .ok p ∧ (⟨1, 1 * 5, 0, "tab:green"⟩ : Line) ∈ p.lines := by
  obtain ⟨p, h1, h2, _⟩ := lines_fails [] [(4, "SBEND")] 1 3 "QUAD" "DRIF" "tab:green" 5 2 (by norm_num) (by norm_num) (by decide)
  exact ⟨p, h1, h2⟩

end Verif.Plot
