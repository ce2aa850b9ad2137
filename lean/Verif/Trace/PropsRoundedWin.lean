import Verif.Trace.RoundedWin
import Verif.Trace.PropsWin
import Verif.Trace.PropsWinHandlers
import Verif.Py.Near

/-!
# Property C173: lengths of TraceWin beamlines in double precision
-/

namespace Verif.Trace

open Verif.Py Verif.Lattice

variable (R : Rounding)

/-- Exact operations. -/
noncomputable def exactWin (float : Str → ℝ) : WNums ℝ where
  float := float
  add x y := x + y
  sub x y := x - y
  mul x y := x * y
  div x y := x / y
  one := 1
  ninety := 90
  milli := 1 / 1000
  mega := 1000000
  c := 299792458
  truthy x := @decide (x ≠ 0) (Classical.propDecidable _)

/-- What the error of a line is measured with: the length it stands for, and for cells also the lengths of the quadrupoles, in metres. -/
noncomputable def lineSize (float : Str → ℝ) (line : Str) : ℝ :=
  let values := (findAll matchNumber line).map float
  |lineLength (exactWin float) line| +
    if (splitWs line).head?.map lower = some "dtl_cel".toList then (|values.getD 1 0| + |values.getD 2 0|) / 1000 else 0

theorem milli_near (x : ℝ) : Near (201 / 100 * 2 ^ (-53 : ℤ)) (R.rnd (x * R.rnd (1 / 1000))) (x * (1 / 1000)) := by
  have h1 : Near (2 ^ (-53 : ℤ)) (R.rnd (1 / 1000)) (1 / 1000) := ((Near.refl _).rnd R).weaken (by norm_num)
  exact (((Near.refl x).mul h1).rnd R).weaken (by norm_num)

/-- The three lengths of a cell add up to that of the cell to eight roundings of the lengths. -/
theorem cell_close (l p q : ℝ) :
    |R.rnd (p * R.rnd (1 / 1000)) + (R.rnd (R.rnd (R.rnd (l * R.rnd (1 / 1000)) - R.rnd (p * R.rnd (1 / 1000))) - R.rnd (q * R.rnd (1 / 1000))) +
      R.rnd (q * R.rnd (1 / 1000))) - l * (1 / 1000)| ≤ 2 ^ (-50 : ℤ) * (|l * (1 / 1000)| + (|p| + |q|) / 1000) := by
  have hl := milli_near R l
  have hp := (milli_near R p).abs_le
  have hq := (milli_near R q).abs_le
  have hl' := hl.abs_le
  unfold Near at hl
  have ep : |p * (1 / 1000)| = |p| / 1000 := by rw [abs_mul, abs_of_pos (a := (1 : ℝ) / 1000) (by norm_num)]; ring
  have eq' : |q * (1 / 1000)| = |q| / 1000 := by rw [abs_mul, abs_of_pos (a := (1 : ℝ) / 1000) (by norm_num)]; ring
  rw [ep] at hp
  rw [eq'] at hq
  generalize R.rnd (l * R.rnd (1 / 1000)) = a at *
  generalize R.rnd (p * R.rnd (1 / 1000)) = b at *
  generalize R.rnd (q * R.rnd (1 / 1000)) = c at *
  have e1 := R.error (a - b)
  have e2 := R.error (R.rnd (a - b) - c)
  have t1 : |a - b| ≤ |a| + |b| := abs_sub a b
  have t2 : |R.rnd (a - b) - c| ≤ |R.rnd (a - b)| + |c| := abs_sub _ _
  have t3 : |R.rnd (a - b)| ≤ |a - b| + |a - b| * 2 ^ (-53 : ℤ) := by
    have := abs_sub_abs_le_abs_sub (R.rnd (a - b)) (a - b)
    linarith
  generalize R.rnd (a - b) = x at *
  generalize R.rnd (x - c) = y at *
  rw [show b + (y + c) - l * (1 / 1000) = (y - (x - c)) + (x - (a - b)) + (a - l * (1 / 1000)) by ring]
  refine (abs_add_three _ _ _).trans ?_
  have hp0 := abs_nonneg p
  have hq0 := abs_nonneg q
  have hl0 := abs_nonneg (l * (1 / 1000))
  clear ep eq'
  generalize |y - (x - c)| = z1 at *
  generalize |x - (a - b)| = z2 at *
  generalize |a - l * (1 / 1000)| = z3 at *
  generalize |l * (1 / 1000)| = L at *
  generalize |p| = P at *
  generalize |q| = Q at *
  norm_num at *
  linarith

theorem scaled_close (x : ℝ) : |R.rnd (x * R.rnd (1 / 1000)) - x * (1 / 1000)| ≤ 2 ^ (-50 : ℤ) * |x * (1 / 1000)| :=
  (milli_near R x).weaken (by norm_num)

theorem rounded_line (float : Str → ℝ) (line : Str) (name : Str) :
    ∃ v, LenList ((lineMade (rWin R float) line).map fun m => mkElem (name ++ m.1) m.2.1 m.2.2 0) v ∧
      |v - lineLength (exactWin float) line| ≤ 2 ^ (-50 : ℤ) * lineSize float line := by
  have hsize : 2 ^ (-50 : ℤ) * |lineLength (exactWin float) line| ≤ 2 ^ (-50 : ℤ) * lineSize float line := by
    unfold lineSize
    refine mul_le_mul_of_nonneg_left ?_ (by positivity)
    by_cases h : (splitWs line).head?.map lower = some "dtl_cel".toList
    · simp only [if_pos h]
      have : 0 ≤ (|((findAll matchNumber line).map float).getD 1 0| + |((findAll matchNumber line).map float).getD 2 0|) / 1000 := by positivity
      linarith
    · simp only [if_neg h]
      linarith
  have hzero : lineLength (exactWin float) line = 0 → |(0 : ℝ) - lineLength (exactWin float) line| ≤ 2 ^ (-50 : ℤ) * lineSize float line := by
    intro h
    refine le_trans ?_ hsize
    rw [h]
    simp
  unfold lineMade
  cases hw : splitWs line with
  | nil =>
    refine ⟨0, ⟨[], .nil, rfl⟩, hzero ?_⟩
    unfold lineLength
    rw [hw]
    rfl
  | cons w ws =>
    have hlen : lineLength (exactWin float) line = (if lower w = "drift".toList ∨ lower w = "quad".toList ∨ lower w = "dtl_cel".toList then
        match (findAll matchNumber line).map float with
        | v :: _ => v * (1 / 1000)
        | [] => 0
      else if lower w = "field_map".toList then
        match (findAll matchNumber line).map float with
        | _ :: v :: _ => v * (1 / 1000)
        | _ => 0
      else 0) := by
      unfold lineLength
      rw [hw]
      simp only [List.head?_cons]
      by_cases h1 : lower w = "drift".toList ∨ lower w = "quad".toList ∨ lower w = "dtl_cel".toList
      · simp only [if_pos h1]
        rw [show (exactWin float).float = float from rfl]
        cases (findAll matchNumber line).map float <;> rfl
      · simp only [if_neg h1]
        by_cases h2 : lower w = "field_map".toList
        · simp only [if_pos h2]
          rw [show (exactWin float).float = float from rfl]
          match (findAll matchNumber line).map float with
          | [] => rfl
          | [_] => rfl
          | _ :: _ :: _ => rfl
        · simp only [if_neg h2]
    simp only
    cases hc : winClass (lower w) with
    | none =>
      refine ⟨0, ⟨[], .nil, rfl⟩, hzero ?_⟩
      have hno : ∀ t ∈ ["drift".toList, "quad".toList, "dtl_cel".toList, "field_map".toList], lower w ≠ t := by
        intro t ht he
        rw [he] at hc
        have : ∀ t ∈ ["drift".toList, "quad".toList, "dtl_cel".toList, "field_map".toList], (winClass t).isSome := by
          decide +kernel
        have := this t ht
        rw [hc] at this
        exact absurd this (by simp)
      rw [hlen, if_neg, if_neg]
      · exact hno _ (by simp)
      · rintro (h | h | h)
        · exact hno _ (by simp) h
        · exact hno _ (by simp) h
        · exact hno _ (by simp) h
    | some c =>
      obtain ⟨cls, names⟩ := c
      simp only
      have hsz : lineSize float line = |lineLength (exactWin float) line| + if lower w = "dtl_cel".toList then
          (|((findAll matchNumber line).map float).getD 1 0| + |((findAll matchNumber line).map float).getD 2 0|) / 1000 else 0 := by
        unfold lineSize
        rw [hw]
        simp
      have hgen0 := generic_length (rWin R float) hc ((findAll matchNumber line).map float) (name ++ [])
      obtain ⟨g, hgen, hgc⟩ : ∃ g, HasLength (mkElem (name ++ []) cls (convAll (rWin R float) (names.zip ((findAll matchNumber line).map float))) 0) g ∧
          |g - lineLength (exactWin float) line| ≤ 2 ^ (-50 : ℤ) * |lineLength (exactWin float) line| := by
        refine ⟨_, hgen0, ?_⟩
        rw [hlen]
        by_cases h1 : lower w = "drift".toList ∨ lower w = "quad".toList ∨ lower w = "dtl_cel".toList
        · simp only [if_pos h1]
          cases (findAll matchNumber line).map float with
          | nil => simp
          | cons v vs => exact scaled_close R v
        · simp only [if_neg h1]
          by_cases h2 : lower w = "field_map".toList
          · simp only [if_pos h2]
            match (findAll matchNumber line).map float with
            | [] => simp
            | [_] => simp
            | _ :: v :: _ => exact scaled_close R v
          · simp only [if_neg h2]
            simp
      clear hgen0
      change ∃ v, LenList ((made (rWin R float) (lower w) cls names ((findAll matchNumber line).map float)).map _) v ∧ _
      generalize (findAll matchNumber line).map float = values at *
      unfold made
      split
      · rename_i ht
        have ht' := of_decide_eq_true ht
        rename_i l q1 q2 _ b1 b2 volt phase _
        have e : lineLength (exactWin float) line = l * (1 / 1000) := by rw [hlen, if_pos (.inr (.inr ht'))]
        refine ⟨_, ⟨[R.rnd (q1 * R.rnd (1 / 1000)),
          R.rnd (R.rnd (R.rnd (l * R.rnd (1 / 1000)) - R.rnd (q1 * R.rnd (1 / 1000))) - R.rnd (q2 * R.rnd (1 / 1000))),
          R.rnd (q2 * R.rnd (1 / 1000))], ?_, rfl⟩, ?_⟩
        · refine .cons (hasLength_iff.2 (.inl ?_)) (.cons (hasLength_iff.2 (.inl ?_)) (.cons (hasLength_iff.2 (.inl ?_)) .nil))
          · exact (getItem_initParams _ _).trans rfl
          · exact (getItem_initParams _ _).trans rfl
          · exact (getItem_initParams _ _).trans rfl
        · rw [hsz, e, if_pos ht']
          simp only [List.sum_cons, List.sum_nil, add_zero]
          exact cell_close R l q1 q2
      · exact ⟨_, ⟨_, .cons hgen .nil, rfl⟩, by rw [List.sum_cons, List.sum_nil, add_zero]; exact hgc.trans hsize⟩

/-- **C173.** The total length of the elements is the sum of the lengths that the lines stand for, up to `2 ^ (-50)` of the lengths in the lines. -/
theorem rounded_win_length (float : Str → ℝ) (name : Str) (file : List Str) (s : WState ℝ) (hr : winFile (rWin R float) name file = .ok s) :
    ∃ (es : List Nat) (lines : List Str) (v : ℝ), (s.heap.line 0).seq = es.map Item.elem ∧ sanitize file = .ok lines ∧ TotalLength s.heap es v ∧
      |v - (lines.map (lineLength (exactWin float))).sum| ≤ 2 ^ (-50 : ℤ) * (lines.map (lineSize float)).sum := by
  obtain ⟨h1, h2, lines, hl, ks, h4, h5, h3⟩ := winFile_elems (rWin R float) name file s hr
  have key : ∃ v, LenList (elems s.heap) v ∧ |v - (lines.map (lineLength (exactWin float))).sum| ≤ 2 ^ (-50 : ℤ) * (lines.map (lineSize float)).sum := by
    rw [h3]
    clear h3 h5 hl
    induction lines generalizing ks with
    | nil => exact ⟨0, ⟨[], by simp, rfl⟩, by simp⟩
    | cons line lines ih =>
      cases ks with
      | nil => exact absurd h4 (by simp)
      | cons k ks =>
        rw [List.zip_cons_cons, List.flatMap_cons, List.map_cons, List.map_cons, List.sum_cons, List.sum_cons]
        obtain ⟨v, a1, a2⟩ := rounded_line R float line ('e' :: natStr k)
        obtain ⟨v', b1, b2⟩ := ih ks (by simpa using h4)
        refine ⟨v + v', a1.append b1, ?_⟩
        rw [show v + v' - (lineLength (exactWin float) line + (lines.map (lineLength (exactWin float))).sum) =
          (v - lineLength (exactWin float) line) + (v' - (lines.map (lineLength (exactWin float))).sum) by ring]
        refine (abs_add_le _ _).trans ?_
        linarith
  obtain ⟨v, k1, k2⟩ := key
  exact ⟨List.range s.heap.nElem, lines, v, h2.seq, hl, LenList.total k1, k2⟩

/-- The cavity of a cell, with its rounded length. -/
theorem cell_cavity (float : Str → ℝ) (name : Str) (file : List Str) (s : WState ℝ) (hr : winFile (rWin R float) name file = .ok s) :
    ∃ (es : List Nat) (lines : List Str), (s.heap.line 0).seq = es.map Item.elem ∧ sanitize file = .ok lines ∧
      ∀ line ∈ lines, ∀ w ws, splitWs line = w :: ws → lower w = "dtl_cel".toList → ∀ l q1 q2 g b1 b2 volt phase rest,
        (findAll matchNumber line).map float = l :: q1 :: q2 :: g :: b1 :: b2 :: volt :: phase :: rest →
        ∃ e ∈ es, (s.heap.elem e).type = "rfca".toList ∧ HasLength (s.heap.elem e)
          (R.rnd (R.rnd (R.rnd (l * R.rnd (1 / 1000)) - R.rnd (q1 * R.rnd (1 / 1000))) - R.rnd (q2 * R.rnd (1 / 1000)))) := by
  obtain ⟨h1, h2, lines, hl, ks, h4, h5, h3⟩ := winFile_elems (rWin R float) name file s hr
  refine ⟨List.range s.heap.nElem, lines, h2.seq, hl, fun line hline w ws hw ht l q1 q2 g b1 b2 volt phase rest hv => ?_⟩
  obtain ⟨i, hi, rfl⟩ := List.mem_iff_getElem.1 hline
  have hi' : i < ks.length := by rw [h4]; exact hi
  have hz : (lines[i], ks[i]) ∈ lines.zip ks := by
    rw [List.mem_iff_getElem]
    exact ⟨i, by rw [List.length_zip]; omega, List.getElem_zip⟩
  have hm : ("cav".toList, "rfca".toList,
       [("l".toList, (rWin R float).sub ((rWin R float).sub ((rWin R float).mul l (rWin R float).milli) ((rWin R float).mul q1 (rWin R float).milli))
          ((rWin R float).mul q2 (rWin R float).milli)), ("volt".toList, volt),
        ("phase".toList, (rWin R float).add phase (rWin R float).ninety), ("frequency".toList, (rWin R float).one)]) ∈ lineMade (rWin R float) lines[i] := by
    unfold lineMade
    rw [hw]
    simp only
    obtain ⟨⟨cls, names⟩, hc⟩ := Option.isSome_iff_exists.1 (show (winClass (lower w)).isSome by rw [ht]; decide +kernel)
    rw [hc]
    simp only
    rw [show (rWin R float).float = float from rfl, hv]
    unfold made
    rw [decide_eq_true ht]
    simp
  have he : mkElem (('e' :: natStr ks[i]) ++ "cav".toList) "rfca".toList
       [("l".toList, (rWin R float).sub ((rWin R float).sub ((rWin R float).mul l (rWin R float).milli) ((rWin R float).mul q1 (rWin R float).milli))
          ((rWin R float).mul q2 (rWin R float).milli)), ("volt".toList, volt),
        ("phase".toList, (rWin R float).add phase (rWin R float).ninety), ("frequency".toList, (rWin R float).one)] 0 ∈ elems s.heap := by
    rw [h3]
    exact List.mem_flatMap.2 ⟨_, hz, List.mem_map.2 ⟨_, hm, rfl⟩⟩
  obtain ⟨e, he1, he2⟩ := List.mem_map.1 he
  refine ⟨e, he1, by rw [he2]; rfl, ?_⟩
  rw [he2]
  exact hasLength_iff.2 (.inl ((getItem_initParams _ _).trans rfl))

/-- **C173, cavities.** The cavity of a cell has what the quadrupoles leave of the length, up to `2 ^ (-50)` of the lengths in the line, and its length
is not negative if the quadrupoles leave at least as much. -/
theorem rounded_cavity_partial (float : Str → ℝ) (name : Str) (file : List Str) (s : WState ℝ) (hr : winFile (rWin R float) name file = .ok s) :
    ∃ (es : List Nat) (lines : List Str), (s.heap.line 0).seq = es.map Item.elem ∧ sanitize file = .ok lines ∧
      ∀ line ∈ lines, ∀ w ws, splitWs line = w :: ws → lower w = "dtl_cel".toList → ∀ l q1 q2 g b1 b2 volt phase rest,
        (findAll matchNumber line).map float = l :: q1 :: q2 :: g :: b1 :: b2 :: volt :: phase :: rest →
        ∃ e ∈ es, (s.heap.elem e).type = "rfca".toList ∧ ∃ v, HasLength (s.heap.elem e) v ∧
          |v - (l - q1 - q2) / 1000| ≤ 2 ^ (-50 : ℤ) * ((|l| + |q1| + |q2|) / 1000) ∧ (2 ^ (-50 : ℤ) * (|l| + |q1| + |q2|) ≤ l - q1 - q2 → 0 ≤ v) := by
  obtain ⟨es, lines, h1, h2, h3⟩ := cell_cavity R float name file s hr
  refine ⟨es, lines, h1, h2, fun line hline w ws hw ht l q1 q2 g b1 b2 volt phase rest hv => ?_⟩
  obtain ⟨e, he, ht', hlen⟩ := h3 line hline w ws hw ht l q1 q2 g b1 b2 volt phase rest hv
  have key : |R.rnd (R.rnd (R.rnd (l * R.rnd (1 / 1000)) - R.rnd (q1 * R.rnd (1 / 1000))) - R.rnd (q2 * R.rnd (1 / 1000))) - (l - q1 - q2) / 1000| ≤
      2 ^ (-50 : ℤ) * ((|l| + |q1| + |q2|) / 1000) := by
    have m1 := milli_near R l
    have m2 := milli_near R q1
    have m3 := milli_near R q2
    have hl' := m1.abs_le
    have hp := m2.abs_le
    have hq := m3.abs_le
    have ea : ∀ x : ℝ, |x * (1 / 1000)| = |x| / 1000 := fun x => by rw [abs_mul, abs_of_pos (a := (1 : ℝ) / 1000) (by norm_num)]; ring
    unfold Near at m1 m2 m3
    rw [ea] at m1 m2 m3 hl' hp hq
    generalize R.rnd (l * R.rnd (1 / 1000)) = a at *
    generalize R.rnd (q1 * R.rnd (1 / 1000)) = b at *
    generalize R.rnd (q2 * R.rnd (1 / 1000)) = c at *
    have e1 := R.error (a - b)
    have e2 := R.error (R.rnd (a - b) - c)
    have t1 : |a - b| ≤ |a| + |b| := abs_sub a b
    have t2 : |R.rnd (a - b) - c| ≤ |R.rnd (a - b)| + |c| := abs_sub _ _
    have t3 : |R.rnd (a - b)| ≤ |a - b| + |a - b| * 2 ^ (-53 : ℤ) := by
      have := abs_sub_abs_le_abs_sub (R.rnd (a - b)) (a - b)
      linarith
    generalize R.rnd (a - b) = x at *
    generalize R.rnd (x - c) = y at *
    rw [show y - (l - q1 - q2) / 1000 = (y - (x - c)) + (x - (a - b)) + ((a - l * (1 / 1000)) - (b - q1 * (1 / 1000)) - (c - q2 * (1 / 1000))) by ring]
    refine (abs_add_three _ _ _).trans ?_
    have t4 := (abs_sub ((a - l * (1 / 1000)) - (b - q1 * (1 / 1000))) (c - q2 * (1 / 1000))).trans
      (add_le_add (abs_sub (a - l * (1 / 1000)) (b - q1 * (1 / 1000))) le_rfl)
    have hp0 := abs_nonneg q1
    have hq0 := abs_nonneg q2
    have hl0 := abs_nonneg l
    clear hlen h3 hv ea
    generalize |y - (x - c)| = z1 at *
    generalize |x - (a - b)| = z2 at *
    generalize |a - l * (1 / 1000) - (b - q1 * (1 / 1000)) - (c - q2 * (1 / 1000))| = z3 at *
    generalize |a - l * (1 / 1000)| = z4 at *
    generalize |b - q1 * (1 / 1000)| = z5 at *
    generalize |c - q2 * (1 / 1000)| = z6 at *
    generalize |l| = L at *
    generalize |q1| = P at *
    generalize |q2| = Q at *
    norm_num at *
    linarith
  refine ⟨e, he, ht', _, hlen, key, fun hfit => ?_⟩
  have := (abs_le.1 key).1
  have h' : 2 ^ (-50 : ℤ) * ((|l| + |q1| + |q2|) / 1000) = 2 ^ (-50 : ℤ) * (|l| + |q1| + |q2|) / 1000 := by ring
  rw [h'] at this
  clear h' key hlen
  generalize 2 ^ (-50 : ℤ) * (|l| + |q1| + |q2|) = z at *
  linarith

/-- **C173 is false for cells without a gap.** A cell of 19 mm that is filled by quadrupoles of 12 mm and 7 mm gets a cavity of negative length, with
every rounding to nearest. -/
theorem rounded_full_cell_fails (float : Str → ℝ) (name : Str) (file : List Str) (s : WState ℝ) (hr : winFile (rWin R float) name file = .ok s) :
    ∃ (es : List Nat) (lines : List Str), (s.heap.line 0).seq = es.map Item.elem ∧ sanitize file = .ok lines ∧
      ∀ line ∈ lines, ∀ w ws, splitWs line = w :: ws → lower w = "dtl_cel".toList → ∀ g b1 b2 volt phase rest,
        (findAll matchNumber line).map float = 19 :: 12 :: 7 :: g :: b1 :: b2 :: volt :: phase :: rest →
        ∃ e ∈ es, (s.heap.elem e).type = "rfca".toList ∧ HasLength (s.heap.elem e) (-2 ^ (-60 : ℤ)) := by
  obtain ⟨es, lines, h1, h2, h3⟩ := cell_cavity R float name file s hr
  refine ⟨es, lines, h1, h2, fun line hline w ws hw ht g b1 b2 volt phase rest hv => ?_⟩
  obtain ⟨e, he, ht', hlen⟩ := h3 line hline w ws hw ht 19 12 7 g b1 b2 volt phase rest hv
  refine ⟨e, he, ht', ?_⟩
  have e0 : R.rnd (1 / 1000) = ((4611686018427388 : ℤ) : ℝ) * 2 ^ (-62 : ℤ) :=
    R.absorb (by norm_num) (by norm_num) (by rw [abs_lt]; constructor <;> norm_num)
  have e1 : R.rnd (19 * (((4611686018427388 : ℤ) : ℝ) * 2 ^ (-62 : ℤ))) = ((5476377146882523 : ℤ) : ℝ) * 2 ^ (-58 : ℤ) :=
    R.absorb (by norm_num) (by norm_num) (by rw [abs_lt]; constructor <;> norm_num)
  have e2 : R.rnd (12 * (((4611686018427388 : ℤ) : ℝ) * 2 ^ (-62 : ℤ))) = ((6917529027641082 : ℤ) : ℝ) * 2 ^ (-59 : ℤ) :=
    R.absorb (by norm_num) (by norm_num) (by rw [abs_lt]; constructor <;> norm_num)
  have e3 : R.rnd (7 * (((4611686018427388 : ℤ) : ℝ) * 2 ^ (-62 : ℤ))) = ((8070450532247929 : ℤ) : ℝ) * 2 ^ (-60 : ℤ) :=
    R.absorb (by norm_num) (by norm_num) (by rw [abs_lt]; constructor <;> norm_num)
  have e4 : R.rnd (((5476377146882523 : ℤ) : ℝ) * 2 ^ (-58 : ℤ) - ((6917529027641082 : ℤ) : ℝ) * 2 ^ (-59 : ℤ)) =
      ((8070450532247928 : ℤ) : ℝ) * 2 ^ (-60 : ℤ) :=
    R.absorb (by norm_num) (by norm_num) (by rw [abs_lt]; constructor <;> norm_num)
  rw [e0, e1, e2, e3, e4, show ((8070450532247928 : ℤ) : ℝ) * 2 ^ (-60 : ℤ) - ((8070450532247929 : ℤ) : ℝ) * 2 ^ (-60 : ℤ) = -2 ^ (-60 : ℤ) by
    push_cast; ring, R.odd, R.fixed (isFloat_zpow _)] at hlen
  exact hlen

/-- A file with such a cell. -/
example : (sanitize ["DTL_CEL 19 12 7 0 1 2 5 7 0 0 0 0 0 0\n".toList]).toOption.map (fun ls => ls.map fun line =>
    ((splitWs line).head?.map lower, findAll matchNumber line)) =
    some [(some "dtl_cel".toList, (["19", "12", "7", "0", "1", "2", "5", "7", "0", "0", "0", "0", "0", "0"] : List String).map String.toList)] := by decide +kernel

end Verif.Trace
