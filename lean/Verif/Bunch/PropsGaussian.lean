import Verif.Bunch.PropsShell

/-!
# Properties C89 and C93: Gaussian bunches and the columns of the array
-/

namespace Verif.Bunch

/-! ## Columns -/

theorem setColumn_same : ∀ (ps : List Row) (i : Fin 7) (l : List ℝ), l.length = ps.length → (setColumn ps i l).map (· i) = l := by
  intro ps i
  induction ps with
  | nil => intro l h; have : l = [] := by simpa using h
           subst this; rfl
  | cons p ps ih =>
    intro l h
    match l with
    | [] => simp at h
    | x :: l =>
      simp only [setColumn, List.zipWith_cons_cons, List.map_cons, if_true, List.cons.injEq, true_and]
      exact ih l (by simpa using h)

theorem setColumn_other : ∀ (ps : List Row) (i j : Fin 7) (l : List ℝ), l.length = ps.length → j ≠ i →
    (setColumn ps i l).map (· j) = ps.map (· j) := by
  intro ps i j
  induction ps with
  | nil => intro l _ _; rfl
  | cons p ps ih =>
    intro l h hj
    match l with
    | [] => simp at h
    | x :: l =>
      simp only [setColumn, List.zipWith_cons_cons, List.map_cons, if_neg hj, List.cons.injEq, true_and]
      exact ih l (by simpa using h) hj

theorem setColumn_length (ps : List Row) (i : Fin 7) (l : List ℝ) (h : l.length = ps.length) : (setColumn ps i l).length = ps.length := by
  unfold setColumn
  rw [List.length_zipWith, h, min_self]

theorem column_ok {b : Bunch} {l : List ℝ} {s : ℝ} {c : List ℝ} (h : b.column l s = .ok c) : l.length = b.npart ∧ c = l.map (· * s) := by
  unfold Bunch.column at h
  by_cases hl : l.length = b.npart
  · rw [if_pos hl] at h
    simp only [Except.ok.injEq] at h
    exact ⟨hl, h.symm⟩
  · rw [if_neg hl] at h; cases h

/-- Result of `StandardBunch.distribute_Gaussian`. -/
theorem gaussian_ok {gx gxp gy gyp} {b b' : Bunch} (hp : b.particles.length = b.npart) (h : b.distributeGaussian gx gxp gy gyp = (b', none)) :
    0 ≤ b.emitx * b.betax ∧ 0 ≤ b.emitx * b.gammax ∧ 0 ≤ b.emity * b.betay ∧ 0 ≤ b.emity * b.gammay ∧
    gx.length = b.npart ∧ gxp.length = b.npart ∧ gy.length = b.npart ∧ gyp.length = b.npart ∧
    b'.particles.length = b.npart ∧
    b'.particles.map (· 0) = gx.map (· * Real.sqrt (b.emitx * b.betax)) ∧
    b'.particles.map (· 1) = gxp.map (· * Real.sqrt (b.emitx * b.gammax)) ∧
    b'.particles.map (· 2) = gy.map (· * Real.sqrt (b.emity * b.betay)) ∧
    b'.particles.map (· 3) = gyp.map (· * Real.sqrt (b.emity * b.gammay)) ∧
    (∀ i : Fin 7, 4 ≤ i.1 → b'.particles.map (· i) = b.particles.map (· i)) ∧ b' = { b with particles := b'.particles } := by
  unfold Bunch.distributeGaussian at h
  by_cases h0 : b.emitx * b.betax < 0 ∨ b.emitx * b.gammax < 0 ∨ b.emity * b.betay < 0 ∨ b.emity * b.gammay < 0
  · rw [if_pos h0] at h; simp at h
  · rw [if_neg h0] at h
    push Not at h0
    cases h1 : b.column gx (Real.sqrt (b.emitx * b.betax)) with
    | error e => simp [h1] at h
    | ok x =>
      cases h2 : b.column gxp (Real.sqrt (b.emitx * b.gammax)) with
      | error e => simp [h1, h2] at h
      | ok xp =>
        cases h3 : b.column gy (Real.sqrt (b.emity * b.betay)) with
        | error e => simp [h1, h2, h3] at h
        | ok y =>
          cases h4 : b.column gyp (Real.sqrt (b.emity * b.gammay)) with
          | error e => simp [h1, h2, h3, h4] at h
          | ok yp =>
            simp only [h1, h2, h3, h4, Prod.mk.injEq, and_true] at h
            obtain ⟨l1, rfl⟩ := column_ok h1
            obtain ⟨l2, rfl⟩ := column_ok h2
            obtain ⟨l3, rfl⟩ := column_ok h3
            obtain ⟨l4, rfl⟩ := column_ok h4
            subst h
            generalize hX : gx.map (· * Real.sqrt (b.emitx * b.betax)) = X
            generalize hXP : gxp.map (· * Real.sqrt (b.emitx * b.gammax)) = XP
            generalize hY : gy.map (· * Real.sqrt (b.emity * b.betay)) = Y
            generalize hYP : gyp.map (· * Real.sqrt (b.emity * b.gammay)) = YP
            have k1 : X.length = b.particles.length := by rw [← hX, List.length_map, l1, hp]
            have k2 : XP.length = b.particles.length := by rw [← hXP, List.length_map, l2, hp]
            have k3 : Y.length = b.particles.length := by rw [← hY, List.length_map, l3, hp]
            have k4 : YP.length = b.particles.length := by rw [← hYP, List.length_map, l4, hp]
            have m1 := setColumn_length b.particles 0 X k1
            have m2 := setColumn_length (setColumn b.particles 0 X) 1 XP (by rw [m1, k2])
            have m3 := setColumn_length (setColumn (setColumn b.particles 0 X) 1 XP) 2 Y (by rw [m2, m1, k3])
            have m4 := setColumn_length (setColumn (setColumn (setColumn b.particles 0 X) 1 XP) 2 Y) 3 YP (by rw [m3, m2, m1, k4])
            refine ⟨h0.1, h0.2.1, h0.2.2.1, h0.2.2.2, l1, l2, l3, l4, ?_, ?_, ?_, ?_, ?_, ?_, rfl⟩
            · rw [m4, m3, m2, m1, hp]
            · rw [setColumn_other _ _ _ _ (by rw [m3, m2, m1, k4]) (by decide), setColumn_other _ _ _ _ (by rw [m2, m1, k3]) (by decide),
                setColumn_other _ _ _ _ (by rw [m1, k2]) (by decide), setColumn_same _ _ _ k1]
            · rw [setColumn_other _ _ _ _ (by rw [m3, m2, m1, k4]) (by decide), setColumn_other _ _ _ _ (by rw [m2, m1, k3]) (by decide),
                setColumn_same _ _ _ (by rw [m1, k2])]
            · rw [setColumn_other _ _ _ _ (by rw [m3, m2, m1, k4]) (by decide), setColumn_same _ _ _ (by rw [m2, m1, k3])]
            · rw [setColumn_same _ _ _ (by rw [m3, m2, m1, k4])]
            · intro i hi
              have n0 : i ≠ 0 := by rintro rfl; simp at hi
              have n1 : i ≠ 1 := by rintro rfl; simp at hi
              have n2 : i ≠ 2 := by rintro rfl; simp at hi
              have n3 : i ≠ 3 := by rintro rfl; simp at hi
              rw [setColumn_other _ _ _ _ (by rw [m3, m2, m1, k4]) n3, setColumn_other _ _ _ _ (by rw [m2, m1, k3]) n2,
                setColumn_other _ _ _ _ (by rw [m1, k2]) n1, setColumn_other _ _ _ _ k1 n0]

/-! ## Second moments -/

/-- Average of the products of two columns. -/
noncomputable def moment (ps : List Row) (i j : Fin 7) : ℝ := (ps.map fun p => p i * p j).sum / ps.length

/-- Average of the products of two lists of drawn numbers. -/
noncomputable def drawMoment (l m : List ℝ) : ℝ := (List.zipWith (· * ·) l m).sum / l.length

theorem map_mul (i j : Fin 7) (ps : List Row) : (ps.map fun p => p i * p j) = List.zipWith (· * ·) (ps.map (· i)) (ps.map (· j)) := by
  induction ps with
  | nil => rfl
  | cons p ps ih => simp only [List.map_cons, List.zipWith_cons_cons, ih]

theorem zip_scale (s t : ℝ) : ∀ l m : List ℝ, (List.zipWith (· * ·) (l.map (· * s)) (m.map (· * t))).sum = s * t * (List.zipWith (· * ·) l m).sum := by
  intro l
  induction l with
  | nil => intro m; simp
  | cons a l ih =>
    intro m
    match m with
    | [] => simp
    | b :: m =>
      simp only [List.map_cons, List.zipWith_cons_cons, List.sum_cons]
      rw [ih m]
      ring

theorem moment_scale {ps : List Row} {i j : Fin 7} {l m : List ℝ} {s t : ℝ} (hl : l.length = ps.length) (hi : ps.map (· i) = l.map (· * s))
    (hj : ps.map (· j) = m.map (· * t)) : moment ps i j = s * t * drawMoment l m := by
  unfold moment drawMoment
  rw [map_mul, hi, hj, zip_scale, hl, mul_div_assoc]

/-- **C89, moments.** The second moments of a Gaussian bunch are those of the drawn numbers times
the emittances and Twiss functions. With ideal numbers (unit variance, no correlation) the beam has the
sizes that belong to the Twiss functions, the correlation zero and the squared emittance
`emitx ^ 2 (1 + alphax ^ 2)`; it is the matched beam if alpha is zero. -/
theorem gaussian_partial {gx gxp gy gyp} {b b' : Bunch} (hp : b.particles.length = b.npart) (h : b.distributeGaussian gx gxp gy gyp = (b', none))
    (hx : drawMoment gx gx = 1) (hxp : drawMoment gxp gxp = 1) (hc : drawMoment gx gxp = 0)
    (hy : drawMoment gy gy = 1) (hyp : drawMoment gyp gyp = 1) (hc' : drawMoment gy gyp = 0) :
    moment b'.particles 0 0 = b.emitx * b.betax ∧ moment b'.particles 1 1 = b.emitx * b.gammax ∧ moment b'.particles 0 1 = 0 ∧
    moment b'.particles 2 2 = b.emity * b.betay ∧ moment b'.particles 3 3 = b.emity * b.gammay ∧ moment b'.particles 2 3 = 0 ∧
    (b.alphax = 0 → moment b'.particles 0 1 = -(b.emitx * b.alphax)) ∧ (b.alphay = 0 → moment b'.particles 2 3 = -(b.emity * b.alphay)) := by
  obtain ⟨p1, p2, p3, p4, l1, l2, l3, l4, hl, c0, c1, c2, c3, _⟩ := gaussian_ok hp h
  have e00 := moment_scale (by rw [l1, hl]) c0 c0
  have e11 := moment_scale (by rw [l2, hl]) c1 c1
  have e01 := moment_scale (by rw [l1, hl]) c0 c1
  have e22 := moment_scale (by rw [l3, hl]) c2 c2
  have e33 := moment_scale (by rw [l4, hl]) c3 c3
  have e23 := moment_scale (by rw [l3, hl]) c2 c3
  rw [hx, mul_one, Real.mul_self_sqrt p1] at e00
  rw [hxp, mul_one, Real.mul_self_sqrt p2] at e11
  rw [hc, mul_zero] at e01
  rw [hy, mul_one, Real.mul_self_sqrt p3] at e22
  rw [hyp, mul_one, Real.mul_self_sqrt p4] at e33
  rw [hc', mul_zero] at e23
  refine ⟨e00, e11, e01, e22, e33, e23, fun ha => ?_, fun ha => ?_⟩
  · rw [e01, ha]; ring
  · rw [e23, ha]; ring

/-- **C89 is false for alpha.** With ideal numbers, a bunch with consistent Twiss functions, positive beta and
emittance and `alphax ≠ 0` has a correlation that is not that of the Twiss functions, and its emittance is larger than
`emitx`. -/
theorem gaussian_fails {gx gxp gy gyp} {b b' : Bunch} (hp : b.particles.length = b.npart) (h : b.distributeGaussian gx gxp gy gyp = (b', none))
    (hx : drawMoment gx gx = 1) (hxp : drawMoment gxp gxp = 1) (hc : drawMoment gx gxp = 0)
    (hβ : 0 < b.betax) (he : 0 < b.emitx) (hγ : b.gammax = (1 + b.alphax ^ 2) / b.betax) (ha : b.alphax ≠ 0) :
    moment b'.particles 0 1 ≠ -(b.emitx * b.alphax) ∧
    moment b'.particles 0 0 * moment b'.particles 1 1 - moment b'.particles 0 1 ^ 2 = b.emitx ^ 2 * (1 + b.alphax ^ 2) ∧
    b.emitx ^ 2 < moment b'.particles 0 0 * moment b'.particles 1 1 - moment b'.particles 0 1 ^ 2 := by
  obtain ⟨p1, p2, _, _, l1, l2, _, _, hl, c0, c1, _⟩ := gaussian_ok hp h
  have e00 := moment_scale (by rw [l1, hl]) c0 c0
  have e11 := moment_scale (by rw [l2, hl]) c1 c1
  have e01 := moment_scale (by rw [l1, hl]) c0 c1
  rw [hx, mul_one, Real.mul_self_sqrt p1] at e00
  rw [hxp, mul_one, Real.mul_self_sqrt p2] at e11
  rw [hc, mul_zero] at e01
  have hd : moment b'.particles 0 0 * moment b'.particles 1 1 - moment b'.particles 0 1 ^ 2 = b.emitx ^ 2 * (1 + b.alphax ^ 2) := by
    rw [e00, e11, e01, hγ]
    field_simp
    ring
  refine ⟨?_, hd, ?_⟩
  · rw [e01]
    exact fun h0 => (mul_ne_zero he.ne' ha) (neg_eq_zero.1 h0.symm)
  · rw [hd]
    have : 0 < b.emitx ^ 2 * b.alphax ^ 2 := by positivity
    nlinarith

/-- Four particles with ideal numbers. -/
example : drawMoment [1, 1, -1, -1] [1, 1, -1, -1] = 1 ∧ drawMoment [1, -1, 1, -1] [1, -1, 1, -1] = 1 ∧ drawMoment [1, 1, -1, -1] [1, -1, 1, -1] = 0 ∧
    ∃ b', (witness 4 false 3 2 5).distributeGaussian [1, 1, -1, -1] [1, -1, 1, -1] [1, 1, -1, -1] [1, -1, 1, -1] = (b', none) := by
  refine ⟨by norm_num [drawMoment], by norm_num [drawMoment], by norm_num [drawMoment], ?_⟩
  unfold Bunch.distributeGaussian
  rw [if_neg (by norm_num [witness])]
  exact ⟨_, rfl⟩

/-! ## The other columns -/

theorem assign_keeps {ps ps' : List Row} {l : List P4} (h : assign ps l = .ok ps') (i : Fin 7) (hi : 4 ≤ i.1) :
    ps'.map (· i) = ps.map (· i) := by
  match l with
  | [] => cases h
  | [q] =>
    simp only [assign, Except.ok.injEq] at h
    rw [← h, List.map_map]
    exact List.map_congr_left fun p _ => setRow_other p q i hi
  | q :: q' :: l =>
    simp only [assign] at h
    by_cases hl : (q :: q' :: l).length = ps.length
    · rw [if_pos hl] at h
      simp only [Except.ok.injEq] at h
      rw [← h]
      exact (zip_trans ps _ hl).2 i hi
    · rw [if_neg hl] at h; cases h

theorem finish_keeps (b : Bunch) (r : Except PyErr (List P4)) (i : Fin 7) (hi : 4 ≤ i.1) :
    (b.finish r).1.particles.map (· i) = b.particles.map (· i) ∧ (b.finish r).1.npart = b.npart := by
  unfold Bunch.finish
  cases r with
  | error e => exact ⟨rfl, rfl⟩
  | ok l =>
    simp only
    cases h : assign b.particles l with
    | error e => exact ⟨rfl, rfl⟩
    | ok ps => exact ⟨assign_keeps h i hi, rfl⟩

/-- **C93, longitudinal.** `set_longitudinal_coordinates` writes the two longitudinal columns with the widths that are given or
were stored, and leaves the transverse coordinates and the identifiers as they are. -/
theorem longitudinal_only {stdz dpop : Option ℝ} {gz gd : List ℝ} {b b' : Bunch} (hp : b.particles.length = b.npart)
    (h : b.setLongitudinal stdz dpop gz gd = (b', none)) :
    b'.particles.map (· 4) = gz.map (· * stdz.getD b.stdz) ∧ b'.particles.map (· 5) = gd.map (· * dpop.getD b.dpop) ∧
    ∀ i : Fin 7, i ≠ 4 → i ≠ 5 → b'.particles.map (· i) = b.particles.map (· i) := by
  unfold Bunch.setLongitudinal at h
  simp only at h
  cases h1 : Bunch.column { b with stdz := stdz.getD b.stdz, dpop := dpop.getD b.dpop } gz (stdz.getD b.stdz) with
  | error e => simp [h1] at h
  | ok z =>
    cases h2 : Bunch.column { b with stdz := stdz.getD b.stdz, dpop := dpop.getD b.dpop } gd (dpop.getD b.dpop) with
    | error e => simp [h1, h2] at h
    | ok d =>
      simp only [h1, h2, Prod.mk.injEq, and_true] at h
      obtain ⟨l1, rfl⟩ := column_ok h1
      obtain ⟨l2, rfl⟩ := column_ok h2
      subst h
      simp only at l1 l2 ⊢
      generalize hZ : gz.map (· * stdz.getD b.stdz) = Z
      generalize hD : gd.map (· * dpop.getD b.dpop) = D
      have k1 : Z.length = b.particles.length := by rw [← hZ, List.length_map, l1, hp]
      have k2 : D.length = (setColumn b.particles 4 Z).length := by rw [setColumn_length _ _ _ k1, ← hD, List.length_map, l2, hp]
      refine ⟨?_, ?_, fun i h4 h5 => ?_⟩
      · rw [setColumn_other _ _ _ _ k2 (by decide), setColumn_same _ _ _ k1]
      · rw [setColumn_same _ _ _ k2]
      · rw [setColumn_other _ _ _ _ k2 h5, setColumn_other _ _ _ _ k1 h4]

example : ∃ b', (witness 2 false 3 2 5).setLongitudinal (some 4) none [1, 2] [3, 4] = (b', none) := ⟨_, rfl⟩

/-- A call of a method of `StandardBunch`. -/
inductive Call where
  | transverse (newton : Newton) (a : TArgs) (gx gxp gy gyp draws : List ℝ)
  | longitudinal (stdz dpop : Option ℝ) (gz gd : List ℝ)
  | kv (newton : Newton) (draws : List ℝ)
  | betax (v : ℝ)
  | betay (v : ℝ)
  | alphax (v : ℝ)
  | alphay (v : ℝ)

/-- The object after a call, whether it raised or not. -/
noncomputable def Call.run (b : Bunch) : Call → Bunch
  | .transverse newton a gx gxp gy gyp draws => (b.setTransverse newton a gx gxp gy gyp draws).1
  | .longitudinal stdz dpop gz gd => (b.setLongitudinal stdz dpop gz gd).1
  | .kv newton draws => (b.distributeKV newton draws).1
  | .betax v => (b.setBetax v).1
  | .betay v => (b.setBetay v).1
  | .alphax v => (b.setAlphax v).1
  | .alphay v => (b.setAlphay v).1

/-- Identifiers and particle number of `b'` are those of `b`. -/
def SameIds (b b' : Bunch) : Prop := b'.npart = b.npart ∧ b'.particles.map (· 6) = b.particles.map (· 6)

theorem SameIds.trans {a b c : Bunch} (h : SameIds a b) (h' : SameIds b c) : SameIds a c := ⟨h'.1.trans h.1, h'.2.trans h.2⟩

theorem SameIds.length {a b : Bunch} (h : SameIds a b) (ha : a.particles.length = a.npart) : b.particles.length = b.npart := by
  have := congrArg List.length h.2
  rw [List.length_map, List.length_map] at this
  rw [this, ha, h.1]

theorem kv_ids (newton draws) (b : Bunch) : SameIds b (b.distributeKV newton draws).1 := by
  unfold Bunch.distributeKV
  by_cases he : b.emitx ≠ b.emity
  · rw [if_pos he]; exact ⟨rfl, rfl⟩
  · rw [if_neg he]
    obtain ⟨h1, h2⟩ := finish_keeps { b with emit := 4 * b.emitx }
      (kvRun newton (fun x y => .ok (some (quadratic x y))) none draws { b with emit := 4 * b.emitx }) 6 (by decide)
    exact ⟨h2, h1⟩

theorem gaussian_ids (gx gxp gy gyp) (b : Bunch) (hp : b.particles.length = b.npart) : SameIds b (b.distributeGaussian gx gxp gy gyp).1 := by
  cases h : (b.distributeGaussian gx gxp gy gyp).2 with
  | none =>
    have h' : b.distributeGaussian gx gxp gy gyp = ((b.distributeGaussian gx gxp gy gyp).1, none) := Prod.ext rfl h
    obtain ⟨_, _, _, _, _, _, _, _, _, _, _, _, _, h6, he⟩ := gaussian_ok hp h'
    refine ⟨?_, h6 6 (by decide)⟩
    rw [he]
  | some e =>
    unfold Bunch.distributeGaussian at h ⊢
    split_ifs at h ⊢ with h0
    · exact ⟨rfl, rfl⟩
    · split at h
      · cases h
      · exact ⟨rfl, rfl⟩

theorem longitudinal_ids (stdz dpop gz gd) (b : Bunch) (hp : b.particles.length = b.npart) : SameIds b (b.setLongitudinal stdz dpop gz gd).1 := by
  cases h : (b.setLongitudinal stdz dpop gz gd).2 with
  | none =>
    have h' : b.setLongitudinal stdz dpop gz gd = ((b.setLongitudinal stdz dpop gz gd).1, none) := Prod.ext rfl h
    refine ⟨?_, (longitudinal_only hp h').2.2 6 (by decide) (by decide)⟩
    unfold Bunch.setLongitudinal
    simp only
    split <;> rfl
  | some e =>
    unfold Bunch.setLongitudinal at h ⊢
    simp only at h ⊢
    split at h
    · cases h
    · exact ⟨rfl, rfl⟩

theorem set_ids (b : Bunch) (v : ℝ) : SameIds b (b.setBetax v).1 ∧ SameIds b (b.setBetay v).1 ∧ SameIds b (b.setAlphax v).1 ∧
    SameIds b (b.setAlphay v).1 := by
  refine ⟨?_, ?_, ?_, ?_⟩
  · unfold Bunch.setBetax; split_ifs <;> exact ⟨rfl, rfl⟩
  · unfold Bunch.setBetay; split_ifs <;> exact ⟨rfl, rfl⟩
  · unfold Bunch.setAlphax; split_ifs <;> exact ⟨rfl, rfl⟩
  · unfold Bunch.setAlphay; split_ifs <;> exact ⟨rfl, rfl⟩

theorem ifGiven_ids {o : Option ℝ} {f : Bunch → ℝ → Bunch × Option PyErr} (hf : ∀ b v, SameIds b (f b v).1) (b : Bunch) :
    SameIds b (ifGiven o f b).1 := by
  cases o with
  | none => exact ⟨rfl, rfl⟩
  | some v => exact hf b v

theorem andThen_ids {b : Bunch} {r : Bunch × Option PyErr} {f : Bunch → Bunch × Option PyErr} (hr : SameIds b r.1)
    (hf : SameIds r.1 (f r.1).1) : SameIds b (andThen r f).1 := by
  obtain ⟨b1, e⟩ := r
  cases e with
  | some e => exact hr
  | none => exact hr.trans hf

theorem transverse_ids (newton a gx gxp gy gyp draws) (b : Bunch) (hp : b.particles.length = b.npart) :
    SameIds b (b.setTransverse newton a gx gxp gy gyp draws).1 := by
  have ha : SameIds b (b.assignArgs a).1 := by
    unfold Bunch.assignArgs
    refine andThen_ids (ifGiven_ids (fun b v => (set_ids b v).1) b) ?_
    refine andThen_ids (ifGiven_ids (fun b v => (set_ids b v).2.2.1) _) ?_
    refine andThen_ids (ifGiven_ids (fun b v => (set_ids b v).1) _) ?_
    refine andThen_ids (ifGiven_ids (fun b v => (set_ids b v).2.2.2) _) ?_
    exact ⟨rfl, rfl⟩
  refine andThen_ids ha ?_
  split_ifs
  · exact gaussian_ids _ _ _ _ _ (ha.length hp)
  · exact kv_ids _ _ _
  · exact ⟨rfl, rfl⟩

/-- **C93, identifiers.** After any sequence of method calls on a new bunch, with any arguments and drawn numbers and whether they
raise or not, the identifiers are 0 to npart - 1 in this order. -/
theorem ids_kept {npart dist emitx emity betax alphax betay alphay stdz dpop quiet} {b : Bunch}
    (h : newBunch npart dist emitx emity betax alphax betay alphay stdz dpop quiet = .ok b) (calls : List Call) :
    (calls.foldl Call.run b).npart = npart ∧ (calls.foldl Call.run b).particles.map (· 6) = (List.range npart.toNat).map fun n : Nat => (n : ℝ) := by
  obtain ⟨_, _, hn, hb⟩ := newBunch_ok h
  have h0 : b.particles.map (· 6) = (List.range npart.toNat).map fun n : Nat => (n : ℝ) := by
    rw [hb, List.map_map]
    exact List.map_congr_left fun n _ => by simp
  have hb' : b.npart = npart.toNat := by rw [hb]
  have hp : b.particles.length = b.npart := by
    rw [hb]
    simp
  have key : ∀ (calls : List Call) (b : Bunch), b.particles.length = b.npart → SameIds b (calls.foldl Call.run b) := by
    intro calls
    induction calls with
    | nil => intro b _; exact ⟨rfl, rfl⟩
    | cons c calls ih =>
      intro b hp
      have hc : SameIds b (c.run b) := by
        cases c with
        | transverse newton a gx gxp gy gyp draws => exact transverse_ids _ _ _ _ _ _ _ _ hp
        | longitudinal stdz dpop gz gd => exact longitudinal_ids _ _ _ _ _ hp
        | kv newton draws => exact kv_ids _ _ _
        | betax v => exact (set_ids b v).1
        | betay v => exact (set_ids b v).2.1
        | alphax v => exact (set_ids b v).2.2.1
        | alphay v => exact (set_ids b v).2.2.2
      exact hc.trans (ih _ (hc.length hp))
  obtain ⟨k1, k2⟩ := key calls b hp
  refine ⟨?_, k2.trans h0⟩
  rw [k1, hb']
  omega

example : ∃ b, newBunch 3 "KV" 1 1 2 0 2 0 1 1 false = .ok b :=
  ⟨_, by
    unfold newBunch
    rw [if_neg (by norm_num), if_neg (by norm_num)]⟩

end Verif.Bunch
