import Verif.Stats6d.PropsRoundedAverage
import Verif.Py.Near
import Verif.Plot.RoundedDensity

/-!
# Property C176: phase space pictures in double precision
-/

namespace Verif.Plot

open Verif.Py Verif.Sample Verif.Stats6d

variable (R : Rounding)

/-- The mean. -/
noncomputable def mean (l : List ℝ) : ℝ := l.sum / l.length

theorem rAverage_eq (l : List ℝ) : rAverage R l = rCalcAvg R (l.map fun v _ => v) 0 := by
  unfold rAverage rCalcAvg
  rw [List.map_map, List.length_map]
  congr 3
  exact (List.map_id l).symm

/-- The average is the mean up to `2 ^ (-46)` of the mean of the magnitudes. -/
theorem rAverage_close {l : List ℝ} (hne : l ≠ []) (hlen : l.length ≤ 2 ^ 47) :
    |rAverage R l - mean l| ≤ 2 ^ (-46 : ℤ) * mean (l.map abs) := by
  have h := avg_accuracy_partial R (a := l.map fun v _ => v) (by simpa using hne) (k := 41) (by rw [List.length_map]; omega) 0
  rw [← rAverage_eq, List.length_map, List.map_map, List.map_map] at h
  have e1 : (((fun p : Vec => p 0) ∘ fun v _ => v) : ℝ → ℝ) = id := rfl
  have e2 : (((fun p : Vec => |p 0|) ∘ fun v _ => v) : ℝ → ℝ) = abs := rfl
  rw [e1, e2, List.map_id] at h
  unfold mean
  rw [List.length_map]
  refine h.trans (mul_le_mul_of_nonneg_right (by norm_num) ?_)
  refine div_nonneg (List.sum_nonneg ?_) (Nat.cast_nonneg _)
  intro x hx
  obtain ⟨y, _, rfl⟩ := List.mem_map.1 hx
  exact abs_nonneg y

theorem mean_pos {l : List ℝ} (hne : l ≠ []) (hpos : ∀ x ∈ l, 0 < x) : 0 < mean l := by
  refine div_pos ?_ (by exact_mod_cast List.length_pos_iff.2 hne)
  exact List.sum_pos l hpos hne

theorem map_abs_pos {l : List ℝ} (hpos : ∀ x ∈ l, 0 < x) : l.map abs = l := by
  exact (List.map_congr_left (g := id) fun x hx => abs_of_pos (hpos x hx)).trans (List.map_id l)

/-- The average of positive numbers. -/
theorem rAverage_pos {l : List ℝ} (hne : l ≠ []) (hlen : l.length ≤ 2 ^ 47) (hpos : ∀ x ∈ l, 0 < x) :
    0 < rAverage R l ∧ |rAverage R l - mean l| ≤ 2 ^ (-46 : ℤ) * mean l := by
  have h := rAverage_close R hne hlen
  rw [map_abs_pos hpos] at h
  refine ⟨?_, h⟩
  have hm := mean_pos hne hpos
  have := (abs_le.1 h).1
  norm_num at this
  linarith

/-- What the four pictures show, for bunches of positive momenta: thousandths up to one rounding, picoseconds to `2 ^ (-44)` of the largest time, and momentum deviations to
`2 ^ (-44)` of one plus the deviation. -/
structure Right (page : List Ptcl) (M : ℝ) (pts : List (List (ℝ × ℝ))) : Prop where
  count : ∀ l ∈ pts, l.length = page.length
  four : pts.length = 4
  first : ∀ i (hi : i < page.length), ∃ x y, (pts.getD 0 [])[i]? = some (x, y) ∧
    |x - 1000 * page[i].x| ≤ 2 ^ (-53 : ℤ) * |1000 * page[i].x| ∧ |y - 1000 * page[i].xp| ≤ 2 ^ (-53 : ℤ) * |1000 * page[i].xp|
  second : ∀ i (hi : i < page.length), ∃ x y, (pts.getD 1 [])[i]? = some (x, y) ∧
    |x - 1000 * page[i].y| ≤ 2 ^ (-53 : ℤ) * |1000 * page[i].y| ∧ |y - 1000 * page[i].yp| ≤ 2 ^ (-53 : ℤ) * |1000 * page[i].yp|
  third : ∀ i (hi : i < page.length), ∃ x y, (pts.getD 2 [])[i]? = some (x, y) ∧
    |x - 1000 * page[i].x| ≤ 2 ^ (-53 : ℤ) * |1000 * page[i].x| ∧ |y - 1000 * page[i].y| ≤ 2 ^ (-53 : ℤ) * |1000 * page[i].y|
  fourth : ∀ i (hi : i < page.length), ∃ x y, (pts.getD 3 [])[i]? = some (x, y) ∧
    |x - 10 ^ 12 * (page[i].t - mean (page.map Ptcl.t))| ≤ 2 ^ (-44 : ℤ) * (10 ^ 12 * M) ∧
    |y - (page[i].p / mean (page.map Ptcl.p) - 1)| ≤ 2 ^ (-44 : ℤ) * (1 + |page[i].p / mean (page.map Ptcl.p) - 1|)

theorem rMilli_close (x : ℝ) : |rMilli R x - 1000 * x| ≤ 2 ^ (-53 : ℤ) * |1000 * x| := by
  unfold rMilli
  rw [mul_comm x, mul_comm (2 ^ (-53 : ℤ))]
  exact R.error _

theorem time_close {t t0 m M : ℝ} (ht : |t| ≤ M) (hm : |m| ≤ M) (h0 : |t0 - m| ≤ 2 ^ (-46 : ℤ) * M) :
    |R.rnd (R.rnd (t - t0) * 1000000000000) - 10 ^ 12 * (t - m)| ≤ 2 ^ (-44 : ℤ) * (10 ^ 12 * M) := by
  have e1 := R.error (t - t0)
  have e2 := R.error (R.rnd (t - t0) * 1000000000000)
  rw [abs_mul, abs_of_pos (a := (1000000000000 : ℝ)) (by norm_num)] at e2
  have b0 : |t0| ≤ 2 * M := by
    have := abs_sub_abs_le_abs_sub t0 m
    have : 0 ≤ M := (abs_nonneg _).trans ht
    norm_num at h0
    linarith
  have b1 : |t - t0| ≤ 3 * M := (abs_sub t t0).trans (by linarith)
  have b2 : |R.rnd (t - t0)| ≤ |t - t0| + |t - t0| * 2 ^ (-53 : ℤ) := by
    have := abs_sub_abs_le_abs_sub (R.rnd (t - t0)) (t - t0)
    linarith
  have hM : 0 ≤ M := (abs_nonneg _).trans ht
  have key : R.rnd (R.rnd (t - t0) * 1000000000000) - 10 ^ 12 * (t - m) =
      (R.rnd (R.rnd (t - t0) * 1000000000000) - R.rnd (t - t0) * 1000000000000) + 1000000000000 * (R.rnd (t - t0) - (t - t0)) - 1000000000000 * (t0 - m) := by ring
  rw [key]
  generalize R.rnd (R.rnd (t - t0) * 1000000000000) - R.rnd (t - t0) * 1000000000000 = A at *
  generalize R.rnd (t - t0) - (t - t0) = B at *
  generalize t0 - m = D at *
  have t1 : |A + 1000000000000 * B - 1000000000000 * D| ≤ |A| + 1000000000000 * |B| + 1000000000000 * |D| := by
    refine (abs_sub _ _).trans ?_
    rw [abs_mul, abs_of_pos (a := (1000000000000 : ℝ)) (by norm_num)]
    refine add_le_add_left ((abs_add_le _ _).trans ?_) _
    rw [abs_mul, abs_of_pos (a := (1000000000000 : ℝ)) (by norm_num)]
  refine t1.trans ?_
  generalize |A| = a at *
  generalize |B| = b at *
  generalize |D| = d at *
  generalize |t - t0| = w at *
  generalize |R.rnd (t - t0)| = v at *
  norm_num at e1 e2 b2 h0 ⊢
  linarith

theorem delta_close {p p0 m : ℝ} (hm : 0 < m) (h0 : |p0 - m| ≤ 2 ^ (-46 : ℤ) * m) :
    |R.rnd (R.rnd (p - p0) / p0) - (p / m - 1)| ≤ 2 ^ (-44 : ℤ) * (1 + |p / m - 1|) := by
  have hp0 : (1 - 2 ^ (-46 : ℤ)) * m ≤ p0 := by
    have := (abs_le.1 h0).1
    linarith
  have hpos : 0 < p0 := lt_of_lt_of_le (mul_pos (by norm_num) hm) hp0
  have hp0' : p0 ≤ (1 + 2 ^ (-46 : ℤ)) * m := by
    have := (abs_le.1 h0).2
    linarith
  have e1 : Near (2 ^ (-53 : ℤ)) (R.rnd (p - p0)) (p - p0) := ((Near.refl _).rnd R).weaken (by norm_num)
  have e2 := (((e1.mul (Near.refl (1 / p0))).rnd R).weaken (ε' := 201 / 100 * 2 ^ (-53 : ℤ)) (by norm_num))
  rw [mul_one_div, mul_one_div] at e2
  unfold Near at e2
  -- the deviation from the computed average
  have hd : (p - p0) / p0 - (p / m - 1) = (p / m) * ((m - p0) / p0) := by field_simp; ring
  have hq : |(m - p0) / p0| ≤ 2 ^ (-45 : ℤ) := by
    rw [abs_div, abs_of_pos hpos, div_le_iff₀ hpos, abs_sub_comm]
    refine h0.trans ?_
    have : 2 ^ (-46 : ℤ) * m ≤ 2 ^ (-45 : ℤ) * ((1 - 2 ^ (-46 : ℤ)) * m) := by norm_num; linarith
    exact this.trans (mul_le_mul_of_nonneg_left hp0 (by positivity))
  have hpm : |p / m| ≤ 1 + |p / m - 1| := by
    have := abs_add_le 1 (p / m - 1)
    rw [abs_one, add_sub_cancel] at this
    exact this
  have h3 : |(p - p0) / p0 - (p / m - 1)| ≤ 2 ^ (-45 : ℤ) * (1 + |p / m - 1|) := by
    rw [hd, abs_mul, mul_comm]
    exact mul_le_mul hq hpm (abs_nonneg _) (by positivity)
  have h4 : |(p - p0) / p0| ≤ |p / m - 1| + 2 ^ (-45 : ℤ) * (1 + |p / m - 1|) := by
    have := abs_sub_abs_le_abs_sub ((p - p0) / p0) (p / m - 1)
    linarith
  have h5 := abs_sub_le (R.rnd (R.rnd (p - p0) / p0)) ((p - p0) / p0) (p / m - 1)
  have hz := abs_nonneg (p / m - 1)
  generalize |R.rnd (R.rnd (p - p0) / p0) - (p / m - 1)| = A at *
  generalize |R.rnd (R.rnd (p - p0) / p0) - (p - p0) / p0| = B at *
  generalize |(p - p0) / p0 - (p / m - 1)| = C at *
  generalize |(p - p0) / p0| = D at *
  generalize |p / m - 1| = E at *
  norm_num at e2 h3 h4 ⊢
  linarith

theorem mean_abs_le {l : List ℝ} (hne : l ≠ []) {M : ℝ} (hM : ∀ x ∈ l, |x| ≤ M) : mean (l.map abs) ≤ M ∧ |mean l| ≤ M := by
  have hn : (0 : ℝ) < l.length := by exact_mod_cast List.length_pos_iff.2 hne
  have h1 : (l.map abs).sum ≤ l.length * M := by
    have := List.sum_le_card_nsmul (l.map abs) M (by
      intro x hx
      obtain ⟨y, hy, rfl⟩ := List.mem_map.1 hx
      exact hM y hy)
    rwa [List.length_map, nsmul_eq_mul] at this
  have h2 : |l.sum| ≤ (l.map abs).sum := by
    clear h1 hn hM hne
    induction l with
    | nil => simp
    | cons x l ih =>
      rw [List.sum_cons, List.map_cons, List.sum_cons]
      exact (abs_add_le _ _).trans (by linarith)
  unfold mean
  rw [List.length_map]
  refine ⟨(div_le_iff₀ hn).2 (by linarith), ?_⟩
  rw [abs_div, abs_of_pos hn]
  exact (div_le_iff₀ hn).2 (by linarith)

theorem rPictures_ok {page : List Ptcl} (hne : page ≠ []) (hlen : page.length ≤ 2 ^ 47) (hp : ∀ q ∈ page, 0 < q.p) :
    rPictures R page = .ok [page.map fun q => (rMilli R q.x, rMilli R q.xp), page.map fun q => (rMilli R q.y, rMilli R q.yp),
      page.map fun q => (rMilli R q.x, rMilli R q.y),
      page.map fun q => (R.rnd (R.rnd (q.t - rAverage R (page.map Ptcl.t)) * 1000000000000),
        R.rnd (R.rnd (q.p - rAverage R (page.map Ptcl.p)) / rAverage R (page.map Ptcl.p)))] := by
  have h := rAverage_pos R (l := page.map Ptcl.p) (by simpa using hne) (by simpa using hlen) (by simpa using hp)
  unfold rPictures rTimeDelta
  simp only
  rw [if_neg (fun h' => h.1.ne' h'.2)]

/-- **C176, accuracy.** -/
theorem rounded_pictures (page : List Ptcl) (hne : page ≠ []) (hlen : page.length ≤ 2 ^ 47) (hp : ∀ q ∈ page, 0 < q.p) (M : ℝ) (hM : ∀ q ∈ page, |q.t| ≤ M) :
    ∃ pts, rPictures R page = .ok pts ∧ Right page M pts := by
  refine ⟨_, rPictures_ok R hne hlen hp, ?_⟩
  have hnt : page.map Ptcl.t ≠ [] := by simpa using hne
  have hnp : page.map Ptcl.p ≠ [] := by simpa using hne
  have hpp : ∀ x ∈ page.map Ptcl.p, 0 < x := by simpa using hp
  have hpa := rAverage_pos R hnp (by simpa using hlen) hpp
  have hta := rAverage_close R hnt (by simpa using hlen)
  have hmt := mean_abs_le hnt (M := M) (by simpa using hM)
  refine ⟨?_, rfl, ?_, ?_, ?_, ?_⟩
  · simp
  · intro i hi
    exact ⟨_, _, by rw [List.getD_cons_zero, List.getElem?_map, List.getElem?_eq_getElem hi]; rfl, rMilli_close R _, rMilli_close R _⟩
  · intro i hi
    exact ⟨_, _, by rw [List.getD_cons_succ, List.getD_cons_zero, List.getElem?_map, List.getElem?_eq_getElem hi]; rfl, rMilli_close R _, rMilli_close R _⟩
  · intro i hi
    exact ⟨_, _, by rw [List.getD_cons_succ, List.getD_cons_succ, List.getD_cons_zero, List.getElem?_map, List.getElem?_eq_getElem hi]; rfl,
      rMilli_close R _, rMilli_close R _⟩
  · intro i hi
    refine ⟨_, _, by rw [List.getD_cons_succ, List.getD_cons_succ, List.getD_cons_succ, List.getD_cons_zero, List.getElem?_map, List.getElem?_eq_getElem hi]; rfl,
      ?_, ?_⟩
    · exact time_close R (hM _ (List.getElem_mem hi)) hmt.2 (hta.trans (mul_le_mul_of_nonneg_left hmt.1 (by positivity)))
    · exact delta_close R (mean_pos hnp hpp) hpa.2

/-- The numbers drawn for the particles are in the order of the coordinate. -/
def Ordered (page : List Ptcl) (coord : Ptcl → ℝ) (l : List ℝ) : Prop :=
  l.length = page.length ∧ ∀ (i j : Nat) (q r : Ptcl) (x y : ℝ), page[i]? = some q → page[j]? = some r → l[i]? = some x → l[j]? = some y →
    coord q ≤ coord r → x ≤ y

theorem ordered_map (page : List Ptcl) (coord g : Ptcl → ℝ) (h : ∀ q r, coord q ≤ coord r → g q ≤ g r) : Ordered page coord (page.map g) := by
  refine ⟨List.length_map g, ?_⟩
  intro i j q r x y hq hr hx hy hc
  rw [List.getElem?_map, hq] at hx
  rw [List.getElem?_map, hr] at hy
  injection hx with hx
  injection hy with hy
  rw [← hx, ← hy]
  exact h q r hc

/-- **C176, order.** In every picture particles are in the order of their coordinates: no particle is drawn on the wrong side of another one. -/
theorem rounded_pictures_order (page : List Ptcl) (hne : page ≠ []) (hlen : page.length ≤ 2 ^ 47) (hp : ∀ q ∈ page, 0 < q.p) :
    ∃ a b c d, rPictures R page = .ok [a, b, c, d] ∧ Ordered page Ptcl.x (a.map Prod.fst) ∧ Ordered page Ptcl.xp (a.map Prod.snd) ∧
      Ordered page Ptcl.y (b.map Prod.fst) ∧ Ordered page Ptcl.yp (b.map Prod.snd) ∧ Ordered page Ptcl.x (c.map Prod.fst) ∧
      Ordered page Ptcl.y (c.map Prod.snd) ∧ Ordered page Ptcl.t (d.map Prod.fst) ∧ Ordered page Ptcl.p (d.map Prod.snd) := by
  have hpa := (rAverage_pos R (l := page.map Ptcl.p) (by simpa using hne) (by simpa using hlen) (by simpa using hp)).1
  have hmono : ∀ {a b : ℝ}, a ≤ b → rMilli R a ≤ rMilli R b := fun h => R.mono (by linarith)
  refine ⟨_, _, _, _, rPictures_ok R hne hlen hp, ?_, ?_, ?_, ?_, ?_, ?_, ?_, ?_⟩ <;> rw [List.map_map] <;> apply ordered_map <;> intro q r h
  · exact hmono h
  · exact hmono h
  · exact hmono h
  · exact hmono h
  · exact hmono h
  · exact hmono h
  · exact R.mono (mul_le_mul_of_nonneg_right (R.mono (by linarith)) (by norm_num))
  · exact R.mono (div_le_div_of_nonneg_right (R.mono (by linarith)) hpa.le)

/-- **C176 is false for bunches without spread.** Three particles with the same momentum `m * 2 ^ e`, with 53 bits of which the last two are `10` and above 4/3 of
the smallest mantissa, are all drawn with the same deviation, which is not zero. This is so for every way to round to nearest. -/
theorem rounded_pictures_equal_fails {m e : ℤ} (hm : m % 4 = 2) (hlo : 2 ^ 54 ≤ 3 * m) (hhi : m < 2 ^ 53) (a b c : Ptcl)
    (ha : a.p = m * 2 ^ e) (hb : b.p = m * 2 ^ e) (hc : c.p = m * 2 ^ e) :
    ∃ pts, rPictures R [a, b, c] = .ok pts ∧ ∃ d ≠ 0, (pts.getD 3 []).map Prod.snd = [d, d, d] := by
  have hpos : (0 : ℝ) < m * 2 ^ e := mul_pos (by exact_mod_cast (show 0 < m by omega)) (by positivity)
  have hp : ∀ q ∈ [a, b, c], 0 < q.p := by
    intro q hq
    simp only [List.mem_cons, List.not_mem_nil, or_false] at hq
    rcases hq with rfl | rfl | rfl
    · rw [ha]; exact hpos
    · rw [hb]; exact hpos
    · rw [hc]; exact hpos
  refine ⟨_, rPictures_ok R (by simp) (by simp) hp, ?_⟩
  have hav := (avg_three_fails R hm hlo hhi (p := fun _ => a.p) (q := fun _ => b.p) (r := fun _ => c.p) (i := 0) ha hb hc).1
  have h0 := (rAverage_pos R (l := [a, b, c].map Ptcl.p) (by simp) (by simp) (by simpa using hp)).1
  have heq : rAverage R ([a, b, c].map Ptcl.p) = rCalcAvg R [fun _ => a.p, fun _ => b.p, fun _ => c.p] 0 := rAverage_eq R _
  rw [← heq] at hav
  generalize rAverage R ([a, b, c].map Ptcl.p) = p0 at *
  refine ⟨R.rnd (R.rnd ((m : ℝ) * 2 ^ e - p0) / p0), ?_, ?_⟩
  · have nz : ∀ x : ℝ, x ≠ 0 → R.rnd x ≠ 0 := by
      intro x hx h
      have := R.error x
      rw [h, zero_sub, abs_neg] at this
      have hx' := abs_pos.2 hx
      norm_num at this
      linarith
    exact nz _ (div_ne_zero (nz _ (sub_ne_zero.2 hav.symm)) h0.ne')
  · simp [ha, hb, hc]

/-! ## Examples -/

/-- Two particles. -/
example : ∃ pts, rPictures R [⟨1, 2, 3, 4, 5, 6⟩, ⟨0, 1, 0, 1, -7, 1 / 3⟩] = .ok pts ∧ Right [⟨1, 2, 3, 4, 5, 6⟩, ⟨0, 1, 0, 1, -7, 1 / 3⟩] 7 pts :=
  rounded_pictures R _ (by simp) (by simp) (by simp) 7 (by simp; norm_num)

example := rounded_pictures_order R [⟨1, 2, 3, 4, 5, 6⟩, ⟨0, 1, 0, 1, -7, 1 / 3⟩] (by simp) (by simp) (by simp)

/-- A mantissa of this kind. -/
example (t : ℝ) : ∃ pts, rPictures R [⟨0, 0, 0, 0, t, (7 * 2 ^ 50 + 2 : ℤ) * 2 ^ (-50 : ℤ)⟩, ⟨0, 0, 0, 0, t, (7 * 2 ^ 50 + 2 : ℤ) * 2 ^ (-50 : ℤ)⟩,
    ⟨0, 0, 0, 0, t, (7 * 2 ^ 50 + 2 : ℤ) * 2 ^ (-50 : ℤ)⟩] = .ok pts ∧ ∃ d ≠ 0, (pts.getD 3 []).map Prod.snd = [d, d, d] :=
  rounded_pictures_equal_fails R (m := 7 * 2 ^ 50 + 2) (e := -50) (by norm_num) (by norm_num) (by norm_num) _ _ _ rfl rfl rfl

end Verif.Plot
