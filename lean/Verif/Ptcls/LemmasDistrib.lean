import Mathlib.Tactic.Linarith
import Mathlib.Tactic.FieldSimp
import Mathlib.Tactic.Ring
import Mathlib.Tactic.LinearCombination
import Mathlib.Tactic.Positivity
import Mathlib.Tactic.FinCases
import Verif.Stats6d.Props
import Verif.Ptcls.Distrib

namespace Verif.Ptcls

open Verif.Stats6d

theorem msqrt_ok {x : ℝ} (h : 0 ≤ x) : msqrt x = .ok (Real.sqrt x) := by
  unfold msqrt
  rw [if_neg (not_lt.2 h)]

theorem root_facts {α β : ℝ} (hβ : 0 < β) :
    let γ := (1 + α ^ 2) / β
    let R := Real.sqrt ((γ - β) ^ 2 + 4 * α ^ 2)
    0 ≤ R ∧ R ^ 2 = (γ - β) ^ 2 + 4 * α ^ 2 ∧ β * γ = 1 + α ^ 2 ∧ 0 < γ ∧ R < γ + β ∧ |γ - β| ≤ R ∧
      (γ + β) ^ 2 - R ^ 2 = 4 := by
  intro γ R
  have h1 : 0 ≤ R := Real.sqrt_nonneg _
  have h2 : R ^ 2 = (γ - β) ^ 2 + 4 * α ^ 2 := Real.sq_sqrt (by positivity)
  have h3 : β * γ = 1 + α ^ 2 := by
    show β * ((1 + α ^ 2) / β) = _
    field_simp
  have h4 : 0 < γ := by positivity
  have h5 : (γ + β) ^ 2 - R ^ 2 = 4 := by rw [h2]; linear_combination 4 * h3
  refine ⟨h1, h2, h3, h4, ?_, ?_, h5⟩
  · by_contra h
    rw [not_lt] at h
    nlinarith
  · apply abs_le_of_sq_le_sq _ h1
    nlinarith [sq_nonneg α]

/-- The sign that the code gives to the correlation. -/
noncomputable def usedAlpha (α β : ℝ) : ℝ := if (1 + α ^ 2) / β = β ∧ α < 0 then -α else α

theorem coeffs_spec {α β : ℝ} (hβ : 0 < β) :
    ∃ c, coeffs α β = .ok c ∧ (c.fac * c.cos) ^ 2 + (c.inv * c.sin) ^ 2 = β ∧
      (c.fac * c.sin) ^ 2 + (c.inv * c.cos) ^ 2 = (1 + α ^ 2) / β ∧
      (c.fac * c.cos) * (c.fac * c.sin) - (c.inv * c.sin) * (c.inv * c.cos) = -usedAlpha α β := by
  obtain ⟨h1, h2, h3, h4, h5, h6, h7⟩ := root_facts (α := α) hβ
  unfold coeffs usedAlpha
  rw [if_neg hβ.ne']
  simp only [bind, Except.bind]
  rw [msqrt_ok (by positivity)]
  generalize hγ : (1 + α ^ 2) / β = γ at *
  generalize hR : Real.sqrt ((γ - β) ^ 2 + 4 * α ^ 2) = R at *
  simp only
  rw [msqrt_ok (by linarith), msqrt_ok (by linarith)]
  simp only
  have hlo : Real.sqrt (1 / 2 * (γ + β - R)) ^ 2 = 1 / 2 * (γ + β - R) := Real.sq_sqrt (by linarith)
  have hhi : Real.sqrt (1 / 2 * (γ + β + R)) ^ 2 = 1 / 2 * (γ + β + R) := Real.sq_sqrt (by linarith)
  generalize Real.sqrt (1 / 2 * (γ + β - R)) = lo at *
  generalize Real.sqrt (1 / 2 * (γ + β + R)) = hi at *
  by_cases hα : α = 0
  · subst hα
    have hRD : R = |γ - β| := by
      rw [← hR]
      rw [show (γ - β) ^ 2 + 4 * (0 : ℝ) ^ 2 = (γ - β) ^ 2 by ring, Real.sqrt_sq_eq_abs]
    simp only [if_true, zero_mul, lt_irrefl, if_false, and_false]
    by_cases hD : 0 ≤ γ - β
    · rw [abs_of_nonneg hD] at hRD
      simp only [if_pos hD]
      refine ⟨_, rfl, ?_, ?_, ?_⟩
      · simp only; rw [hRD] at hlo; linear_combination hlo
      · simp only; rw [hRD] at hhi; linear_combination hhi
      · simp
    · rw [abs_of_neg (not_le.1 hD)] at hRD
      simp only [if_neg hD]
      refine ⟨_, rfl, ?_, ?_, ?_⟩
      · simp only; rw [hRD] at hhi; linear_combination hhi
      · simp only; rw [hRD] at hlo; linear_combination hlo
      · simp
  · have hRpos : 0 < R := by
      rcases lt_or_eq_of_le h1 with h | h
      · exact h
      · exfalso
        rw [← h] at h2
        have : 0 < α ^ 2 := by positivity
        nlinarith [sq_nonneg (γ - β)]
    have hq0 : 0 ≤ |γ - β| / R := by positivity
    have hq1 : |γ - β| / R ≤ 1 := (div_le_one hRpos).2 h6
    rw [if_neg hα, msqrt_ok (by linarith), msqrt_ok (by linarith)]
    simp only
    have hs : Real.sqrt (1 / 2 * (1 - |γ - β| / R)) ^ 2 = 1 / 2 * (1 - |γ - β| / R) := Real.sq_sqrt (by linarith)
    have hc : Real.sqrt (1 / 2 * (1 + |γ - β| / R)) ^ 2 = 1 / 2 * (1 + |γ - β| / R) := Real.sq_sqrt (by linarith)
    have hs0 := Real.sqrt_nonneg (1 / 2 * (1 - |γ - β| / R))
    have hc0 := Real.sqrt_nonneg (1 / 2 * (1 + |γ - β| / R))
    generalize Real.sqrt (1 / 2 * (1 - |γ - β| / R)) = s at *
    generalize Real.sqrt (1 / 2 * (1 + |γ - β| / R)) = c at *
    have hsc : s * c * R = |α| := by
      have hsq : (s * c * R) ^ 2 = |α| ^ 2 := by
        have e : (s * c * R) ^ 2 = s ^ 2 * c ^ 2 * R ^ 2 := by ring
        rw [e, hs, hc, sq_abs]
        have e2 : 1 / 2 * (1 - |γ - β| / R) * (1 / 2 * (1 + |γ - β| / R)) * R ^ 2 = 1 / 4 * (R ^ 2 - |γ - β| ^ 2) := by
          field_simp
          ring
        rw [e2, sq_abs, h2]
        ring
      exact (sq_eq_sq₀ (by positivity) (abs_nonneg _)).1 hsq
    by_cases hD : 0 ≤ γ - β
    · rw [abs_of_nonneg hD] at hs hc
      have hsR : s ^ 2 * R = 1 / 2 * (R - (γ - β)) := by rw [hs]; field_simp
      have hcR : c ^ 2 * R = 1 / 2 * (R + (γ - β)) := by rw [hc]; field_simp
      have hsc1 : s ^ 2 + c ^ 2 = 1 := by rw [hs, hc]; ring
      simp only [if_pos hD]
      have k1 : lo ^ 2 * c ^ 2 + hi ^ 2 * s ^ 2 = β := by
        rw [hlo, hhi]
        linear_combination 1 / 2 * (γ + β) * hsc1 + 1 / 2 * hsR - 1 / 2 * hcR
      have k2 : lo ^ 2 * s ^ 2 + hi ^ 2 * c ^ 2 = γ := by
        rw [hlo, hhi]
        linear_combination 1 / 2 * (γ + β) * hsc1 - 1 / 2 * hsR + 1 / 2 * hcR
      have k3 : (lo ^ 2 - hi ^ 2) * (s * c) = -|α| := by
        rw [hlo, hhi]
        linear_combination -hsc
      by_cases hneg : α * (γ - β) < 0
      · have hα0 : α < 0 := by
          by_contra h
          exact absurd hneg (not_lt.2 (mul_nonneg (not_lt.1 h) hD))
        have hne : ¬ (γ = β ∧ α < 0) := by
          rintro ⟨h, _⟩
          rw [h] at hneg
          simp at hneg
        rw [abs_of_neg hα0] at k3
        simp only [if_pos hneg, if_neg hne]
        refine ⟨_, rfl, ?_, ?_, ?_⟩
        · simp only; linear_combination k1
        · simp only; linear_combination k2
        · simp only; linear_combination -k3
      · simp only [if_neg hneg]
        refine ⟨_, rfl, ?_, ?_, ?_⟩
        · simp only; linear_combination k1
        · simp only; linear_combination k2
        · simp only
          by_cases hα0 : α < 0
          · have hg : γ = β := by
              rcases lt_or_eq_of_le hD with h | h
              · exact absurd (mul_neg_of_neg_of_pos hα0 h) hneg
              · linarith
            rw [if_pos ⟨hg, hα0⟩]
            rw [abs_of_neg hα0] at k3
            linear_combination k3
          · rw [if_neg (fun h => hα0 h.2)]
            rw [abs_of_nonneg (not_lt.1 hα0)] at k3
            linear_combination k3
    · have hD' := not_le.1 hD
      rw [abs_of_neg hD'] at hs hc
      have hsR : s ^ 2 * R = 1 / 2 * (R + (γ - β)) := by rw [hs]; field_simp; ring
      have hcR : c ^ 2 * R = 1 / 2 * (R - (γ - β)) := by rw [hc]; field_simp; ring
      have hsc1 : s ^ 2 + c ^ 2 = 1 := by rw [hs, hc]; ring
      simp only [if_neg hD]
      have hne : ¬ (γ = β ∧ α < 0) := by
        rintro ⟨h, _⟩
        linarith
      simp only [if_neg hne]
      have k1 : hi ^ 2 * c ^ 2 + lo ^ 2 * s ^ 2 = β := by
        rw [hlo, hhi]
        linear_combination 1 / 2 * (γ + β) * hsc1 - 1 / 2 * hsR + 1 / 2 * hcR
      have k2 : hi ^ 2 * s ^ 2 + lo ^ 2 * c ^ 2 = γ := by
        rw [hlo, hhi]
        linear_combination 1 / 2 * (γ + β) * hsc1 + 1 / 2 * hsR - 1 / 2 * hcR
      have k3 : (hi ^ 2 - lo ^ 2) * (s * c) = |α| := by
        rw [hlo, hhi]
        linear_combination hsc
      by_cases hneg : α * (γ - β) < 0
      · have hα0 : 0 < α := by
          by_contra h
          exact absurd hneg (not_lt.2 (mul_nonneg_of_nonpos_of_nonpos (not_lt.1 h) hD'.le))
        rw [abs_of_pos hα0] at k3
        simp only [if_pos hneg]
        refine ⟨_, rfl, ?_, ?_, ?_⟩
        · simp only; linear_combination k1
        · simp only; linear_combination k2
        · simp only; linear_combination -k3
      · have hα0 : α ≤ 0 := by
          by_contra h
          exact hneg (mul_neg_of_pos_of_neg (not_le.1 h) hD')
        rw [abs_of_nonpos hα0] at k3
        simp only [if_neg hneg]
        refine ⟨_, rfl, ?_, ?_, ?_⟩
        · simp only; linear_combination k1
        · simp only; linear_combination k2
        · simp only; linear_combination k3

theorem coeffs_negative {α β : ℝ} (hβ : β ≤ 0) : ∃ e, coeffs α β = .error e := by
  unfold coeffs
  by_cases h0 : β = 0
  · exact ⟨_, if_pos h0⟩
  · have hb : β < 0 := lt_of_le_of_ne hβ h0
    rw [if_neg h0]
    simp only [bind, Except.bind]
    rw [msqrt_ok (by positivity)]
    simp only
    have hg : (1 + α ^ 2) / β < 0 := div_neg_of_pos_of_neg (by positivity) hb
    have hneg : 1 / 2 * ((1 + α ^ 2) / β + β - Real.sqrt (((1 + α ^ 2) / β - β) ^ 2 + 4 * α ^ 2)) < 0 := by
      have := Real.sqrt_nonneg (((1 + α ^ 2) / β - β) ^ 2 + 4 * α ^ 2)
      linarith
    unfold msqrt
    rw [if_pos hneg]
    exact ⟨_, rfl⟩

/-! ## Linear maps of particle arrays -/

theorem mean_map_linear (a : Arr) (u w : ℝ) (i j : Fin 6) :
    ((a.map fun p => u * p i + w * p j).sum) / (a.length : ℝ) = u * mean a i + w * mean a j := by
  have : (a.map fun p => u * p i + w * p j).sum = u * (a.map fun p => p i).sum + w * (a.map fun p => p j).sum := by
    induction a with
    | nil => simp
    | cons p a ih => simp only [List.map_cons, List.sum_cons, ih]; ring
  rw [this]
  unfold mean
  ring

theorem cov_map_linear (a : Arr) (f : Vec → Vec) {i j i' j' : Fin 6} {u w u' w' : ℝ} {k l : Fin 6}
    (hi : ∀ p, f p i = u * p i' + w * p j') (hj : ∀ p, f p j = u' * p k + w' * p l) :
    cov (a.map f) i j = u * u' * cov a i' k + u * w' * cov a i' l + w * u' * cov a j' k + w * w' * cov a j' l := by
  have hm1 : mean (a.map f) i = u * mean a i' + w * mean a j' := by
    rw [← mean_map_linear]
    unfold mean
    rw [List.map_map, List.length_map]
    simp only [Function.comp_def, hi]
  have hm2 : mean (a.map f) j = u' * mean a k + w' * mean a l := by
    rw [← mean_map_linear]
    unfold mean
    rw [List.map_map, List.length_map]
    simp only [Function.comp_def, hj]
  unfold cov
  rw [hm1, hm2, List.map_map, List.length_map]
  simp only [Function.comp_def, hi, hj]
  generalize mean a i' = mi
  generalize mean a j' = mj
  generalize mean a k = mk
  generalize mean a l = ml
  clear hm1 hm2
  have e : (a.map fun p => (u * p i' + w * p j' - (u * mi + w * mj)) * (u' * p k + w' * p l - (u' * mk + w' * ml))).sum =
      u * u' * (a.map fun p => (p i' - mi) * (p k - mk)).sum + u * w' * (a.map fun p => (p i' - mi) * (p l - ml)).sum +
      w * u' * (a.map fun p => (p j' - mj) * (p k - mk)).sum + w * w' * (a.map fun p => (p j' - mj) * (p l - ml)).sum := by
    induction a with
    | nil => simp
    | cons p a ih => simp only [List.map_cons, List.sum_cons, ih]; ring
  rw [e]
  ring

/-! ## The loops -/

theorem planeLoop_full (c : Coeffs) (rt : ℝ) (k : Fin 3) (ts : Arr) : ∀ as : Arr, as.length = ts.length →
    planeLoop c rt k ts.length ts as = .ok (List.zipWith (planeStep c rt k) ts as) := by
  induction ts with
  | nil =>
    intro as h
    rw [List.length_nil, List.length_eq_zero_iff] at h
    subst h
    rfl
  | cons t ts ih =>
    intro as h
    match as with
    | [] => simp at h
    | a :: as =>
      simp only [List.length_cons, Nat.add_right_cancel_iff] at h
      rw [List.length_cons]
      unfold planeLoop
      rw [ih as h]
      rfl

theorem planeLoop_short (c : Coeffs) (rt : ℝ) (k : Fin 3) (n : Nat) : ∀ ts as : Arr, as.length < n →
    planeLoop c rt k n ts as = .error .indexError := by
  induction n with
  | zero => intro ts as h; exact absurd h (Nat.not_lt_zero _)
  | succ n ih =>
    intro ts as h
    match ts, as with
    | [], _ => rfl
    | _ :: _, [] => rfl
    | t :: ts, a :: as =>
      unfold planeLoop
      rw [ih ts as (by simpa using h)]

/-- Other planes are not touched. -/
theorem ix_ip_ne (k l : Fin 3) : ix k ≠ ip l := by
  intro h
  have := congrArg Fin.val h
  simp only [ix, ip] at this
  omega

theorem ix_inj {k l : Fin 3} (h : ix k = ix l) : k = l := by
  have := congrArg Fin.val h
  simp only [ix] at this
  exact Fin.ext (by omega)

theorem ip_inj {k l : Fin 3} (h : ip k = ip l) : k = l := by
  have := congrArg Fin.val h
  simp only [ip] at this
  exact Fin.ext (by omega)

/-- What the three passes do to one particle. -/
noncomputable def mapParticle (c : Fin 3 → Coeffs) (rt : Fin 3 → ℝ) (p : Vec) : Vec :=
  planeStep (c 2) (rt 2) 2 p (planeStep (c 1) (rt 1) 1 p (planeStep (c 0) (rt 0) 0 p p))

theorem planeStep_other (c : Coeffs) (rt : ℝ) {k l : Fin 3} (h : l ≠ k) (t a : Vec) :
    planeStep c rt k t a (ix l) = a (ix l) ∧ planeStep c rt k t a (ip l) = a (ip l) := by
  unfold planeStep
  rw [if_neg (fun e => h (ix_inj e)), if_neg (ix_ip_ne l k), if_neg (ix_ip_ne k l).symm, if_neg (fun e => h (ip_inj e))]
  exact ⟨rfl, rfl⟩

theorem planeStep_same (c : Coeffs) (rt : ℝ) (k : Fin 3) (t a : Vec) :
    planeStep c rt k t a (ix k) = rt * (c.fac * c.cos * t (ix k) - c.inv * c.sin * t (ip k)) ∧
    planeStep c rt k t a (ip k) = rt * (c.fac * c.sin * t (ix k) + c.inv * c.cos * t (ip k)) := by
  unfold planeStep
  rw [if_pos rfl, if_neg (ix_ip_ne k k).symm, if_pos rfl]
  exact ⟨rfl, rfl⟩

theorem mapParticle_plane (c : Fin 3 → Coeffs) (rt : Fin 3 → ℝ) (p : Vec) (k : Fin 3) :
    mapParticle c rt p (ix k) = rt k * (c k).fac * (c k).cos * p (ix k) + -(rt k * (c k).inv * (c k).sin) * p (ip k) ∧
    mapParticle c rt p (ip k) = rt k * (c k).fac * (c k).sin * p (ix k) + rt k * (c k).inv * (c k).cos * p (ip k) := by
  unfold mapParticle
  fin_cases k
  · simp only [Fin.zero_eta]
    rw [(planeStep_other _ _ (show (0 : Fin 3) ≠ 2 by decide) _ _).1, (planeStep_other _ _ (show (0 : Fin 3) ≠ 2 by decide) _ _).2,
      (planeStep_other _ _ (show (0 : Fin 3) ≠ 1 by decide) _ _).1, (planeStep_other _ _ (show (0 : Fin 3) ≠ 1 by decide) _ _).2,
      (planeStep_same _ _ _ _ _).1, (planeStep_same _ _ _ _ _).2]
    constructor <;> ring
  · simp only [Fin.mk_one]
    rw [(planeStep_other _ _ (show (1 : Fin 3) ≠ 2 by decide) _ _).1, (planeStep_other _ _ (show (1 : Fin 3) ≠ 2 by decide) _ _).2,
      (planeStep_same _ _ _ _ _).1, (planeStep_same _ _ _ _ _).2]
    constructor <;> ring
  · simp only [Fin.reduceFinMk]
    rw [(planeStep_same _ _ _ _ _).1, (planeStep_same _ _ _ _ _).2]
    constructor <;> ring

theorem makeTwiss_eq {s : PhaseSpace} (hn : s.num = s.arr.length) {tw : Fin 3 → Twiss} {c : Fin 3 → Coeffs}
    (hc : ∀ k, coeffs (tw k).alpha (tw k).beta = .ok (c k)) (he : ∀ k, 0 ≤ (tw k).emit) :
    makeTwiss s tw = .ok ⟨s.num, s.arr.map (mapParticle c fun k => Real.sqrt (tw k).emit)⟩ := by
  have h1 : ∀ (k : Fin 3) (arr : Arr), arr.length = s.arr.length → onePlane k (tw k) s.num s.arr arr =
      .ok (List.zipWith (planeStep (c k) (Real.sqrt (tw k).emit) k) s.arr arr) := by
    intro k arr h
    unfold onePlane
    rw [hc k, msqrt_ok (he k)]
    simp only [bind, Except.bind]
    rw [hn, planeLoop_full _ _ _ _ _ h]
  unfold makeTwiss
  rw [h1 0 _ rfl]
  simp only [bind, Except.bind]
  rw [h1 1 _ (by simp)]
  simp only
  rw [h1 2 _ (by simp)]
  simp only [Except.ok.injEq, PhaseSpace.mk.injEq, true_and]
  have key : ∀ (f g : Vec → Vec → Vec) (h : Vec → Vec → Vec) (l : Arr),
      List.zipWith f l (List.zipWith g l (List.zipWith h l l)) = l.map fun p => f p (g p (h p p)) := by
    intro f g h l
    induction l with
    | nil => rfl
    | cons p l ih => simp only [List.zipWith_cons_cons, List.map_cons, ih]
  exact key _ _ _ _

end Verif.Ptcls
