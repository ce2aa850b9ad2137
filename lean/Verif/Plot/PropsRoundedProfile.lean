import Verif.Plot.RoundedProfile
import Verif.Plot.PropsOverlap
import Verif.Nonlinear.PropsRounded
import Verif.Py.TiesEven

/-!
# Claim C153: the magnet profile in double precision
-/

namespace Verif.Plot

open Verif.Py Verif.Nonlinear

variable (R : Rounding)

/-- The rectangle of a magnet. -/
noncomputable def rRect (scale height : ℝ) (s : ℝ × ℝ × String) : Rect :=
  ⟨R.rnd (s.1 * scale), R.rnd (-height / 2), R.rnd (R.rnd (s.2.1 * scale) - R.rnd (s.1 * scale)), height, s.2.2⟩

theorem rloop_eq (scale height : ℝ) : ∀ (rows : List (ℝ × String)) (s : ℝ) (p : Profile),
    ∃ l, rProfileLoop R scale height (invertMapping elementMappings) rows s p =
      .ok ⟨p.lines ++ l, p.rects ++ (spans s rows).map (rRect R scale height)⟩ := by
  intro rows
  induction rows with
  | nil => intro s p; exact ⟨[], by simp [rProfileLoop, spans]⟩
  | cons row rows ih =>
    intro s p
    obtain ⟨b, t⟩ := row
    obtain ⟨h1, h2⟩ := types_colors t
    unfold rProfileLoop
    cases hl : (invertMapping elementMappings).lookup t with
    | none =>
      rw [hl] at h1
      simp only [Option.bind_none] at h1
      simp only
      obtain ⟨l, h⟩ := ih b p
      exact ⟨l, by rw [h]; simp [spans, ← h1]⟩
    | some k =>
      obtain ⟨c, hc⟩ := h2 k hl
      rw [hl, Option.bind_some, hc] at h1
      simp only [hc]
      obtain ⟨l, h⟩ := ih b ⟨p.lines ++ [⟨s, R.rnd (s * scale), 0, c⟩],
        p.rects ++ [⟨R.rnd (s * scale), R.rnd (-height / 2), R.rnd (R.rnd (b * scale) - R.rnd (s * scale)), height, c⟩]⟩
      exact ⟨⟨s, R.rnd (s * scale), 0, c⟩ :: l, by rw [h]; simp [spans, ← h1, rRect]⟩

theorem rprofile_eq (rows : List (ℝ × String)) (hr : rows ≠ []) (scale height : ℝ) :
    ∃ p, rPlotProfile R rows scale height = .ok p ∧ p.rects = (spans 0 rows).map (rRect R scale height) := by
  unfold rPlotProfile
  rw [List.getLast?_eq_some_getLast hr]
  simp only
  obtain ⟨l, h⟩ := rloop_eq R scale height rows 0 ⟨[⟨0, R.rnd ((rows.getLast hr).1 * scale), 0, "k"⟩], []⟩
  rw [h]
  exact ⟨_, rfl, by simp⟩

/-- **C153, positions.** The rectangles are those of the magnets: the left sides and the right sides are those of the elements up to
rounding, no width is negative, and a rectangle reaches into a later one by at most `2^-52` times its width. -/
theorem profile_rounded_partial (rows : List (ℝ × String)) (hr : rows ≠ []) (hm : List.Pairwise (· ≤ ·) (0 :: rows.map Prod.fst))
    (scale height : ℝ) (hs : 0 ≤ scale) :
    ∃ p, rPlotProfile R rows scale height = .ok p ∧
      List.Forall₂ (fun s r => |r.x - s.1 * scale| ≤ s.1 * scale * 2 ^ (-53 : ℤ) ∧
        |r.x + r.width - s.2.1 * scale| ≤ s.2.1 * scale * 2 ^ (-51 : ℤ) ∧ 0 ≤ r.width ∧ r.height = height ∧ r.color = s.2.2)
        (spans 0 rows) p.rects ∧
      p.rects.Pairwise fun r q => r.x ≤ q.x ∧ r.x + r.width ≤ q.x + r.width * 2 ^ (-52 : ℤ) := by
  obtain ⟨p, h, hp⟩ := rprofile_eq R rows hr scale height
  obtain ⟨h1, h2⟩ := spans_sorted rows 0 hm
  have hw : ∀ s ∈ spans 0 rows, R.rnd (s.1 * scale) ≤ R.rnd (s.2.1 * scale) := fun s hs' =>
    R.mono (mul_le_mul_of_nonneg_right (h1 s hs').2 hs)
  have hwid : ∀ s ∈ spans 0 rows, (rRect R scale height s).x + (rRect R scale height s).width ≤
      R.rnd (s.2.1 * scale) + (rRect R scale height s).width * 2 ^ (-52 : ℤ) := by
    intro s hs'
    simp only [rRect]
    have hd : 0 ≤ R.rnd (s.2.1 * scale) - R.rnd (s.1 * scale) := by linarith [hw s hs']
    have e := (abs_le.1 (R.error (R.rnd (s.2.1 * scale) - R.rnd (s.1 * scale))))
    rw [abs_of_nonneg hd] at e
    norm_num at e ⊢
    linarith [e.1, e.2]
  refine ⟨p, h, ?_, ?_⟩
  · rw [hp, List.forall₂_map_right_iff, List.forall₂_same]
    intro s hs'
    obtain ⟨ha, hb⟩ := h1 s hs'
    have hsa : 0 ≤ s.1 * scale := mul_nonneg ha hs
    have hsb : s.1 * scale ≤ s.2.1 * scale := mul_le_mul_of_nonneg_right hb hs
    have e1 := R.error (s.1 * scale)
    have e2 := R.error (s.2.1 * scale)
    have hd : 0 ≤ R.rnd (s.2.1 * scale) - R.rnd (s.1 * scale) := by linarith [hw s hs']
    have e3 := R.error (R.rnd (s.2.1 * scale) - R.rnd (s.1 * scale))
    rw [abs_of_nonneg hsa] at e1
    rw [abs_of_nonneg (hsa.trans hsb)] at e2
    rw [abs_of_nonneg hd] at e3
    refine ⟨e1, ?_, R.nonneg hd, rfl, rfl⟩
    simp only [rRect]
    have h0 : 0 ≤ R.rnd (s.1 * scale) := R.nonneg hsa
    have e4 : R.rnd (s.2.1 * scale) ≤ s.2.1 * scale * 2 := by
      have := (abs_le.1 e2).2
      norm_num at this
      linarith
    rw [abs_le] at e2 e3 ⊢
    norm_num at e2 e3 ⊢
    constructor <;> linarith
  · rw [hp, List.pairwise_map]
    refine List.Pairwise.imp_of_mem ?_ h2
    intro s s' hs1 hs2 hss
    have hmono : R.rnd (s.2.1 * scale) ≤ R.rnd (s'.1 * scale) := R.mono (mul_le_mul_of_nonneg_right hss hs)
    refine ⟨(hw s hs1).trans hmono, (hwid s hs1).trans ?_⟩
    have : (rRect R scale height s').x = R.rnd (s'.1 * scale) := rfl
    rw [this]; linarith

theorem rRect_right (scale height : ℝ) (hs : 0 ≤ scale) (s : ℝ × ℝ × String) (ha : 0 ≤ s.1) (hb : s.1 ≤ s.2.1)
    (h : s.1 = 0 ∨ s.2.1 ≤ s.1 * (2 - 2 ^ (-50 : ℤ))) :
    (rRect R scale height s).x + (rRect R scale height s).width = R.rnd (s.2.1 * scale) := by
  simp only [rRect]
  have hw : R.rnd (s.1 * scale) ≤ R.rnd (s.2.1 * scale) := R.mono (mul_le_mul_of_nonneg_right hb hs)
  have hf : IsFloat (R.rnd (s.2.1 * scale) - R.rnd (s.1 * scale)) := by
    rcases h with h | h
    · rw [h, zero_mul, R.rnd_zero, sub_zero]; exact R.isFloat _
    · refine isFloat_sub (R.isFloat _) (R.isFloat _) hw ?_
      have h1 := rnd_le_mul R (s.2.1 * scale) (mul_nonneg (ha.trans hb) hs)
      have h2 := le_rnd_mul R (s.1 * scale) (mul_nonneg ha hs)
      have h3 : s.2.1 * scale ≤ s.1 * scale * (2 - 2 ^ (-50 : ℤ)) := by
        have := mul_le_mul_of_nonneg_right h hs
        linarith
      have h4 : 0 ≤ s.1 * scale := mul_nonneg ha hs
      norm_num at h1 h2 h3 ⊢
      linarith
  rw [R.fixed hf]; ring

/-- **C153, exact sides.** If every magnet begins at zero or ends before twice its start, the right sides are the rounded ends of the
elements, with and without rounding of the sum, and the rectangles do not overlap. -/
theorem profile_touch_partial (rows : List (ℝ × String)) (hr : rows ≠ []) (hm : List.Pairwise (· ≤ ·) (0 :: rows.map Prod.fst))
    (scale height : ℝ) (hs : 0 ≤ scale) (h2 : ∀ s ∈ spans 0 rows, s.1 = 0 ∨ s.2.1 ≤ s.1 * (2 - 2 ^ (-50 : ℤ))) :
    ∃ p, rPlotProfile R rows scale height = .ok p ∧
      List.Forall₂ (fun s r => r.x = R.rnd (s.1 * scale) ∧ r.x + r.width = R.rnd (s.2.1 * scale) ∧ r.right R = R.rnd (s.2.1 * scale))
        (spans 0 rows) p.rects ∧
      p.rects.Pairwise fun r q => r.right R ≤ q.x ∧ ¬ Overlap r q := by
  obtain ⟨p, h, hp⟩ := rprofile_eq R rows hr scale height
  obtain ⟨h1, h3⟩ := spans_sorted rows 0 hm
  have he : ∀ s ∈ spans 0 rows, (rRect R scale height s).x + (rRect R scale height s).width = R.rnd (s.2.1 * scale) := fun s hs' =>
    rRect_right R scale height hs s (h1 s hs').1 (h1 s hs').2 (h2 s hs')
  have hright : ∀ s ∈ spans 0 rows, (rRect R scale height s).right R = R.rnd (s.2.1 * scale) := by
    intro s hs'
    unfold Rect.right
    rw [he s hs', R.fixed (R.isFloat _)]
  refine ⟨p, h, ?_, ?_⟩
  · rw [hp, List.forall₂_map_right_iff, List.forall₂_same]
    exact fun s hs' => ⟨rfl, he s hs', hright s hs'⟩
  · rw [hp, List.pairwise_map]
    refine List.Pairwise.imp_of_mem ?_ h3
    intro s s' hs1 hs2 hss
    have hmono : R.rnd (s.2.1 * scale) ≤ R.rnd (s'.1 * scale) := R.mono (mul_le_mul_of_nonneg_right hss hs)
    have w1 : R.rnd (s.1 * scale) ≤ R.rnd (s.2.1 * scale) := R.mono (mul_le_mul_of_nonneg_right (h1 s hs1).2 hs)
    have w2 : R.rnd (s'.1 * scale) ≤ R.rnd (s'.2.1 * scale) := R.mono (mul_le_mul_of_nonneg_right (h1 s' hs2).2 hs)
    refine ⟨by rw [hright s hs1]; exact hmono, ?_⟩
    rintro ⟨x, hx, hy⟩
    unfold Rect.Inside at hx hy
    rw [he s hs1] at hx
    rw [he s' hs2] at hy
    have x1 : (rRect R scale height s).x = R.rnd (s.1 * scale) := rfl
    have x2 : (rRect R scale height s').x = R.rnd (s'.1 * scale) := rfl
    rw [x1] at hx
    rw [x2] at hy
    rcases hx with hx | hx <;> rcases hy with hy | hy <;> linarith [hx.1, hx.2, hy.1, hy.2]

/-- **C153 is false for long magnets.** If ties are rounded to even numbers, a quadrupole from `(4 j + 3) / 2` to `2 n + 1` units of the
last place reaches into the following magnet, whatever that is, by one unit, with and without rounding of the right side. -/
theorem profile_overlap_fails (hR : R.TiesEven) (j n e : ℤ) (hj : 0 ≤ j) (h1 : 2 ^ 52 < 2 * (n - j)) (h2 : 2 * (n + 1) ≤ 2 ^ 53)
    (c : ℝ) (hcf : IsFloat c) (hc : (2 * n + 1) * 2 ^ e < c) (height : ℝ) :
    ∃ p r q, rPlotProfile R [((4 * j + 3) * 2 ^ (e - 1), "DRIF"), ((2 * n + 1) * 2 ^ e, "QUAD"), (c, "SBEND")] 1 height = .ok p ∧
      p.rects = [r, q] ∧ q.x = (2 * n + 1) * 2 ^ e ∧ r.right R = q.x + 2 ^ e ∧ Overlap r q := by
  obtain ⟨p, h, hp⟩ := rprofile_eq R [((4 * (j : ℝ) + 3) * 2 ^ (e - 1), "DRIF"), ((2 * n + 1) * 2 ^ e, "QUAD"), (c, "SBEND")] (by simp) 1 height
  have hh := half_zpow e
  have hq := two_zpow_pos (e - 1)
  have fa : IsFloat ((4 * (j : ℝ) + 3) * 2 ^ (e - 1)) := ⟨4 * j + 3, e - 1, by rw [abs_of_nonneg (by omega)]; omega, by push_cast; ring⟩
  have fb : IsFloat ((2 * (n : ℝ) + 1) * 2 ^ e) := ⟨2 * n + 1, e, by rw [abs_of_nonneg (by omega)]; omega, by push_cast; ring⟩
  have hsp : spans 0 [((4 * (j : ℝ) + 3) * 2 ^ (e - 1), "DRIF"), ((2 * n + 1) * 2 ^ e, "QUAD"), (c, "SBEND")] =
      [((4 * (j : ℝ) + 3) * 2 ^ (e - 1), (2 * (n : ℝ) + 1) * 2 ^ e, "tab:green"), ((2 * (n : ℝ) + 1) * 2 ^ e, c, "tab:red")] := by
    simp [spans, magnetColor]
  rw [hsp] at hp
  have w : R.rnd ((2 * (n : ℝ) + 1) * 2 ^ e - (4 * j + 3) * 2 ^ (e - 1)) = 2 * (n - j) * 2 ^ e := by
    have := (hR (n - j) e h1 (by omega)).2
    push_cast at this
    rw [← this]
    congr 1
    rw [hh]; ring
  have r1 : R.rnd ((4 * (j : ℝ) + 3) * 2 ^ (e - 1) + 2 * (n - j) * 2 ^ e) = 2 * (n + 1) * 2 ^ e := by
    have := (hR (n + 1) e (by omega) h2).2
    push_cast at this
    rw [← this]
    congr 1
    rw [hh]; ring
  have fc := R.fixed hcf
  refine ⟨p, _, _, h, hp, ?_, ?_, ?_⟩
  · simp only [rRect, mul_one, R.fixed fb]
  · simp only [rRect, Rect.right, mul_one, R.fixed fa, R.fixed fb, w, r1]
    ring
  · have wp : 0 < R.rnd (c - (2 * (n : ℝ) + 1) * 2 ^ e) := R.pos (by linarith)
    obtain ⟨t, t0, t1, t2⟩ : ∃ t : ℝ, 0 < t ∧ t < 2 ^ (e - 1) ∧ t < R.rnd (c - (2 * (n : ℝ) + 1) * 2 ^ e) := by
      obtain ⟨t, t0, t1⟩ := exists_between (lt_min hq wp)
      exact ⟨t, t0, lt_of_lt_of_le t1 (min_le_left _ _), lt_of_lt_of_le t1 (min_le_right _ _)⟩
    refine ⟨(2 * (n : ℝ) + 1) * 2 ^ e + t, Or.inl ?_, Or.inl ?_⟩
    · simp only [rRect, mul_one, R.fixed fa, R.fixed fb, w]
      have hk : (1 : ℝ) ≤ n - j := by
        have : (1 : ℤ) ≤ n - j := by omega
        exact_mod_cast this
      have hm := mul_le_mul_of_nonneg_right hk hq.le
      rw [hh]
      constructor <;> nlinarith
    · simp only [rRect, mul_one, R.fixed fb, fc]
      constructor <;> linarith

/-- The claim holds for a line of three magnets, the first at the beginning. -/
example : ∃ p, rPlotProfile R [(1, "QUAD"), (1.5, "SBEND"), (2, "SEXT")] 1 1 = .ok p ∧ p.rects.Pairwise fun r q => r.right R ≤ q.x ∧ ¬ Overlap r q := by
  obtain ⟨p, h, -, h2⟩ := profile_touch_partial R [(1, "QUAD"), (1.5, "SBEND"), (2, "SEXT")] (by simp) (by norm_num) 1 1 (by norm_num)
    (by simp [spans, magnetColor]; norm_num)
  exact ⟨p, h, h2⟩

example : ∃ p, rPlotProfile R [(1, "QUAD"), (5, "SBEND"), (9, "SEXT")] 1 1 = .ok p ∧ p.rects.Pairwise fun r q => r.x ≤ q.x ∧
    r.x + r.width ≤ q.x + r.width * 2 ^ (-52 : ℤ) := by
  obtain ⟨p, h, -, h2⟩ := profile_rounded_partial R [(1, "QUAD"), (5, "SBEND"), (9, "SEXT")] (by simp) (by norm_num) 1 1 (by norm_num)
  exact ⟨p, h, h2⟩

/-- The rounding of the standard is of this kind; positions 1.5 and 2^52 + 2^51 + 1. -/
example : ∃ p r q, rPlotProfile Rounding.even [((4 * (0 : ℤ) + 3) * 2 ^ ((0 : ℤ) - 1), "DRIF"),
    ((2 * ((2 ^ 51 + 2 ^ 50 : ℤ) : ℝ) + 1) * 2 ^ (0 : ℤ), "QUAD"), (2 ^ (53 : ℤ), "SBEND")] 1 1 = .ok p ∧ p.rects = [r, q] ∧ Overlap r q := by
  obtain ⟨p, r, q, h, h1, -, -, h2⟩ := profile_overlap_fails Rounding.even even_tiesEven 0 (2 ^ 51 + 2 ^ 50) 0 le_rfl (by norm_num) (by norm_num)
    (2 ^ (53 : ℤ)) (isFloat_zpow 53) (by norm_num) 1
  exact ⟨p, r, q, h, h1, h2⟩

end Verif.Plot
