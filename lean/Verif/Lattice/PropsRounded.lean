import Verif.Lattice.Rounded
import Verif.Stats6d.PropsRoundedAverage
import Verif.Py.TiesEven

/-!
# C160: lengths and positions in double precision
-/

namespace Verif.Lattice

open Verif.Py Verif.Sample Verif.Stats6d

variable {Rd : Rounding}

/-- The elements `es` have the lengths `ls`; elements without `L` have none. -/
inductive Lengths (h : Heap (Dbl Rd)) : List Nat → List ℝ → Prop
  | nil : Lengths h [] []
  | skip {e : Nat} {es : List Nat} {ls : List ℝ} (hx : Params.getItem (h.elem e).params "L".toList = none) (ht : Lengths h es ls) :
      Lengths h (e :: es) ls
  | cons {e : Nat} {es : List Nat} {ls : List ℝ} {x : ℝ} (hx : Params.getItem (h.elem e).params "L".toList = some (.num ⟨x⟩))
      (ht : Lengths h es ls) : Lengths h (e :: es) (x :: ls)

/-- Three elements with lengths, and two beamlines of them in the two directions. -/
def threeDrifts (x : Nat → ℝ) : Heap (Dbl Rd) where
  elem i := ⟨"d".toList, "drift".toList, [("l".toList, .num ⟨x i⟩)], 0⟩
  nElem := 3
  line l := ⟨none, [], [], if l = 0 then [.elem 0, .elem 1, .elem 2] else [.elem 2, .elem 1, .elem 0], 0⟩
  nLine := 2

theorem threeDrifts_length (x : Nat → ℝ) (i : Nat) :
    Params.getItem ((threeDrifts (Rd := Rd) x).elem i).params "L".toList = some (.num ⟨x i⟩) := rfl

theorem threeDrifts_elements (x : Nat → ℝ) :
    (threeDrifts (Rd := Rd) x).elementsOf 1 0 = some [0, 1, 2] ∧ (threeDrifts (Rd := Rd) x).elementsOf 1 1 = some [2, 1, 0] := ⟨rfl, rfl⟩

theorem addLength_num {h : Heap (Dbl Rd)} {e : Nat} {x : ℝ} (hx : Params.getItem (h.elem e).params "L".toList = some (.num ⟨x⟩))
    (len : Dbl Rd) : addLength len (h.elem e) = .ok ⟨Rd.rnd (len.val + x)⟩ := by
  simp only [addLength, hx]; rfl

theorem addLength_none {h : Heap (Dbl Rd)} {e : Nat} (hx : Params.getItem (h.elem e).params "L".toList = none)
    (len : Dbl Rd) : addLength len (h.elem e) = .ok len := by
  simp only [addLength, hx]

theorem Lengths.append {h : Heap (Dbl Rd)} {es es' : List Nat} {ls ls' : List ℝ} (h1 : Lengths h es ls) (h2 : Lengths h es' ls') :
    Lengths h (es ++ es') (ls ++ ls') := by
  induction h1 with
  | nil => exact h2
  | skip hx _ ih => exact .skip hx ih
  | cons hx _ ih => exact .cons hx ih

theorem sumLength_rounded {h : Heap (Dbl Rd)} {es : List Nat} {ls : List ℝ} (hl : Lengths h es ls) (len : Dbl Rd) :
    sumLength h es len = .ok ⟨addAll Rd len.val ls⟩ := by
  induction hl generalizing len with
  | nil => rfl
  | skip hx _ ih =>
    simp only [sumLength, addLength_none hx]
    exact ih len
  | cons hx _ ih =>
    simp only [sumLength, addLength_num hx]
    exact ih _

theorem sumEdge_rounded {h : Heap (Dbl Rd)} {pre post : List Nat} {e : Nat} {ls : List ℝ} (hl : Lengths h pre ls) (he : e ∉ pre)
    (len : Dbl Rd) : sumEdge h e (pre ++ e :: post) len = .ok ⟨addAll Rd len.val ls⟩ := by
  induction hl generalizing len with
  | nil => simp [sumEdge, addAll]
  | @skip a es ls hx _ ih =>
    rw [List.mem_cons, not_or] at he
    simp only [List.cons_append, sumEdge, if_neg (Ne.symm he.1), addLength_none hx]
    exact ih he.2 len
  | @cons a es ls x hx _ ih =>
    rw [List.mem_cons, not_or] at he
    simp only [List.cons_append, sumEdge, if_neg (Ne.symm he.1), addLength_num hx]
    exact ih he.2 _

theorem edge_rounded {h : Heap (Dbl Rd)} {fuel e : Nat} {pre post : List Nat} {ls : List ℝ}
    (hes : h.elementsOf fuel (h.elem e).top = some (pre ++ e :: post)) (hl : Lengths h pre ls) (he : e ∉ pre) :
    h.edge fuel e = some (.ok ⟨addAll Rd 0 ls⟩) := by
  unfold Heap.edge
  rw [hes, Option.map_some, sumEdge_rounded hl he]
  rfl

/-- **C160, accuracy.** The length of a beamline is the sum of the lengths of its elements up to one rounding error for each element that has
a length, and so is the position of every element. -/
theorem length_accuracy_partial {h : Heap (Dbl Rd)} {fuel l : Nat} {es : List Nat} {ls : List ℝ} (hes : h.elementsOf fuel l = some es)
    (hl : Lengths h es ls) :
    ∃ v : ℝ, h.length fuel l = some (.ok ⟨v⟩) ∧ |v - ls.sum| ≤ ((1 + 2 ^ (-53 : ℤ)) ^ ls.length - 1) * (ls.map abs).sum := by
  refine ⟨addAll Rd 0 ls, ?_, ?_⟩
  · unfold Heap.length
    rw [hes, Option.map_some, sumLength_rounded hl]
    rfl
  · have := (addAll_sums Rd (SumsTo.zero 0) ls).2
    rwa [zero_add, zero_add, zero_add] at this

example (x : Nat → ℝ) : Lengths (threeDrifts (Rd := Rd) x) [0, 1, 2] [x 0, x 1, x 2] :=
  .cons (threeDrifts_length x 0) (.cons (threeDrifts_length x 1) (.cons (threeDrifts_length x 2) .nil))

theorem addAll_snoc (R : Rounding) (s x : ℝ) (ls : List ℝ) : addAll R s (ls ++ [x]) = R.rnd (addAll R s ls + x) := by
  simp [addAll, List.foldl_append]

/-- **C160, neighbours.** In a beamline of elements that occur once, the position of the next element is the position of the element plus its
length, rounded once; the length of the beamline is the position of its last element plus the length of it, rounded once. -/
theorem edge_next_partial {h : Heap (Dbl Rd)} {fuel e : Nat} {pre post : List Nat} {ls : List ℝ} {x : ℝ}
    (hes : h.elementsOf fuel (h.elem e).top = some (pre ++ e :: post)) (hnd : (pre ++ e :: post).Nodup) (hl : Lengths h pre ls)
    (hx : Params.getItem (h.elem e).params "L".toList = some (.num ⟨x⟩)) :
    ∃ s : ℝ, h.edge fuel e = some (.ok ⟨s⟩) ∧
      (∀ e' post', post = e' :: post' → (h.elem e').top = (h.elem e).top → h.edge fuel e' = some (.ok ⟨Rd.rnd (s + x)⟩)) ∧
      (post = [] → h.length fuel (h.elem e).top = some (.ok ⟨Rd.rnd (s + x)⟩)) := by
  have hl2 : Lengths h (pre ++ [e]) (ls ++ [x]) := hl.append (.cons hx .nil)
  have he : e ∉ pre := by
    intro hc
    exact (List.nodup_append.1 hnd).2.2 e hc e (List.mem_cons_self ..) rfl
  refine ⟨_, edge_rounded hes hl he, ?_, ?_⟩
  · rintro e' post' rfl ht
    have h1 : pre ++ e :: e' :: post' = (pre ++ [e]) ++ e' :: post' := by simp
    rw [h1] at hes hnd
    rw [← addAll_snoc]
    refine edge_rounded (by rw [ht]; exact hes) hl2 fun hc => ?_
    exact (List.nodup_append.1 hnd).2.2 e' hc e' (List.mem_cons_self ..) rfl
  · rintro rfl
    unfold Heap.length
    rw [hes, Option.map_some, sumLength_rounded hl2, ← addAll_snoc]
    rfl

example (x : Nat → ℝ) : ∃ s : ℝ, (threeDrifts (Rd := Rd) x).edge 1 1 = some (.ok ⟨s⟩) ∧
    (threeDrifts (Rd := Rd) x).edge 1 2 = some (.ok ⟨Rd.rnd (s + x 1)⟩) := by
  obtain ⟨s, h1, h2, -⟩ := edge_next_partial (h := threeDrifts (Rd := Rd) x) (fuel := 1) (e := 1) (pre := [0]) (post := [2])
    (threeDrifts_elements x).1 (by decide) (.cons (threeDrifts_length x 0) .nil) (threeDrifts_length x 1)
  exact ⟨s, h1, h2 2 [] rfl rfl⟩

theorem addAll_append_le (R : Rounding) {s : ℝ} (hs : IsFloat s) (ls mid : List ℝ) (hm : ∀ x ∈ mid, 0 ≤ x) :
    addAll R s ls ≤ addAll R s (ls ++ mid) := by
  rw [show addAll R s (ls ++ mid) = addAll R (addAll R s ls) mid by simp [addAll, List.foldl_append]]
  exact addAll_ge R (addAll_isFloat R hs ls) hm

/-- **C160, order.** Lengths that are not negative give positions that do not decrease. -/
theorem edge_mono_partial {h : Heap (Dbl Rd)} {fuel e e' : Nat} {pre mid post : List Nat} {ls ms : List ℝ}
    (hes : h.elementsOf fuel (h.elem e).top = some (pre ++ e :: mid ++ e' :: post)) (ht : (h.elem e').top = (h.elem e).top)
    (he : e ∉ pre) (he' : e' ∉ pre ++ e :: mid) (hl : Lengths h pre ls) (hm : Lengths h (e :: mid) ms) (h0 : ∀ x ∈ ms, 0 ≤ x) :
    ∃ s s' : ℝ, h.edge fuel e = some (.ok ⟨s⟩) ∧ h.edge fuel e' = some (.ok ⟨s'⟩) ∧ s ≤ s' := by
  refine ⟨_, _, edge_rounded (post := mid ++ e' :: post) (by rw [hes]; simp) hl he, edge_rounded (by rw [ht]; exact hes) (hl.append hm) he', ?_⟩
  exact addAll_append_le Rd isFloat_zero ls ms h0

example (x : Nat → ℝ) (h0 : ∀ i, 0 ≤ x i) : ∃ s s' : ℝ, (threeDrifts (Rd := Rd) x).edge 1 0 = some (.ok ⟨s⟩) ∧
    (threeDrifts (Rd := Rd) x).edge 1 2 = some (.ok ⟨s'⟩) ∧ s ≤ s' :=
  edge_mono_partial (h := threeDrifts (Rd := Rd) x) (fuel := 1) (e := 0) (e' := 2) (pre := []) (mid := [1]) (post := [])
    (threeDrifts_elements x).1 rfl (by decide) (by decide) .nil
    (.cons (threeDrifts_length x 0) (.cons (threeDrifts_length x 1) .nil)) (by simp [h0])

/-- **C160 is false for thin elements.** An element shorter than 2^-54 of its position moves nothing: the next element is at the same
position. -/
theorem edge_thin_fails {h : Heap (Dbl Rd)} {fuel e e' : Nat} {pre post : List Nat} {ls : List ℝ} {x : ℝ}
    (hes : h.elementsOf fuel (h.elem e).top = some (pre ++ e :: e' :: post)) (hnd : (pre ++ e :: e' :: post).Nodup)
    (ht : (h.elem e').top = (h.elem e).top) (hl : Lengths h pre ls)
    (hx : Params.getItem (h.elem e).params "L".toList = some (.num ⟨x⟩)) (h0 : 0 < x)
    (hthin : ∀ s : ℝ, h.edge fuel e = some (.ok ⟨s⟩) → x * 2 ^ (54 : ℤ) < s) : h.edge fuel e' = h.edge fuel e := by
  obtain ⟨s, h1, h2, -⟩ := edge_next_partial hes hnd hl hx
  rw [h2 e' post rfl ht, h1]
  have hs := hthin s h1
  have hsf : IsFloat s := by
    have := edge_rounded hes hl (e := e) (fun hc => (List.nodup_append.1 hnd).2.2 e hc e (List.mem_cons_self ..) rfl)
    rw [h1] at this
    simp only [Option.some.injEq, Except.ok.injEq, Dbl.mk.injEq] at this
    rw [this]
    exact addAll_isFloat Rd isFloat_zero ls
  have hs0 : 0 < s := lt_of_le_of_lt (by positivity) hs
  congr 3
  -- a larger result would be farther away than the position itself
  refine le_antisymm ?_ (Rd.ge_of_ge hsf (by linarith))
  by_contra hc
  rw [not_le] at hc
  have h3 := (Rd.isFloat (s + x)).gap_rel hsf (h0 := hs0.trans hc) hc
  have h4 := Rd.nearest (s + x) s hsf
  rw [show s - (s + x) = -x by ring, abs_neg, abs_of_pos (a := x) h0] at h4
  have h5 := (abs_le.1 h4).2
  have e1 : (2 : ℝ) ^ (54 : ℤ) * 2 ^ (-53 : ℤ) = 2 := by norm_num
  have h6 : x * 2 < s * 2 ^ (-53 : ℤ) := by
    have := mul_lt_mul_of_pos_right hs (two_zpow_pos (-53))
    rwa [mul_assoc, e1] at this
  have h7 : s * 2 ^ (-53 : ℤ) ≤ Rd.rnd (s + x) * 2 ^ (-53 : ℤ) := mul_le_mul_of_nonneg_right hc.le (two_zpow_pos _).le
  linarith

/-- A foil of 2^-60 behind a drift of 1. -/
example : (threeDrifts (Rd := Rd) fun i => if i = 1 then 2 ^ (-60 : ℤ) else 1).edge 1 2 =
    (threeDrifts (Rd := Rd) fun i => if i = 1 then 2 ^ (-60 : ℤ) else 1).edge 1 1 := by
  refine edge_thin_fails (e := 1) (e' := 2) (pre := [0]) (post := []) (ls := [1]) (x := 2 ^ (-60 : ℤ)) (threeDrifts_elements _).1 (by decide) rfl
    (.cons ?_ .nil) ?_ (by positivity) ?_
  · rw [threeDrifts_length]; simp
  · rw [threeDrifts_length]; simp
  · intro s hs
    have h1 := edge_rounded (h := threeDrifts (Rd := Rd) fun i => if i = 1 then 2 ^ (-60 : ℤ) else 1) (fuel := 1) (e := 1) (pre := [0])
      (post := [2]) (threeDrifts_elements _).1 (ls := [1]) (.cons (by rw [threeDrifts_length]; simp) .nil) (by decide)
    rw [hs] at h1
    simp only [Option.some.injEq, Except.ok.injEq, Dbl.mk.injEq, addAll, List.foldl_cons, List.foldl_nil, zero_add, Rd.rnd_one] at h1
    rw [h1]
    norm_num

/-- **C160 is false for another order.** Three elements of lengths `m`, `j + a`, `k + b` in units of the last bit of the first, with `a` and
`b` below one half and `a + b` at least 3/4: the length of the beamline is not that of the beamline in the other direction, for every way to
round to nearest. -/
theorem length_order_fails {h : Heap (Dbl Rd)} {fuel l l' : Nat} {es es' : List Nat} {m j k e : ℤ} {a b : ℝ}
    (hes : h.elementsOf fuel l = some es) (hes' : h.elementsOf fuel l' = some es')
    (hl : Lengths h es [m * 2 ^ e, (j + a) * 2 ^ e, (k + b) * 2 ^ e]) (hl' : Lengths h es' [(k + b) * 2 ^ e, (j + a) * 2 ^ e, m * 2 ^ e])
    (hfb : IsFloat ((k + b) * 2 ^ e)) (hm : 2 ^ 52 < m) (hj : 0 ≤ j) (hk : 0 ≤ k) (hjk : 4 * (j + k) + 3 ≤ 2 ^ 53)
    (hmax : m + j + k + 1 < 2 ^ 53) (ha0 : 0 ≤ a) (ha : a < 1 / 2) (hb0 : 0 ≤ b) (hb : b < 1 / 2) (hab : 3 / 4 ≤ a + b) :
    h.length fuel l = some (.ok ⟨((m + j + k : ℤ) : ℝ) * 2 ^ e⟩) ∧ h.length fuel l' = some (.ok ⟨((m + j + k + 1 : ℤ) : ℝ) * 2 ^ e⟩) := by
  have hE := two_zpow_pos e
  have hhalf := half_zpow e
  have hfm : IsFloat ((m : ℝ) * 2 ^ e) := ⟨m, e, by rw [abs_of_pos (by omega)]; omega, rfl⟩
  constructor
  · unfold Heap.length
    rw [hes, Option.map_some, sumLength_rounded hl]
    congr 3
    simp only [addAll, List.foldl_cons, List.foldl_nil]
    rw [show ((0 : Dbl Rd).val) = 0 from rfl, zero_add, Rd.fixed hfm]
    rw [Rd.absorb (m := m + j) (e := e) (x := m * 2 ^ e + (j + a) * 2 ^ e) (by omega) (by omega)]
    · rw [Rd.absorb (m := m + j + k) (e := e) (by omega) (by omega)]
      push_cast
      rw [show ((m : ℝ) + j) * 2 ^ e + (k + b) * 2 ^ e - (m + j + k) * 2 ^ e = b * 2 ^ e by ring, abs_of_nonneg (by positivity)]
      have := mul_lt_mul_of_pos_right hb hE
      linarith
    · push_cast
      rw [show (m : ℝ) * 2 ^ e + (j + a) * 2 ^ e - (m + j) * 2 ^ e = a * 2 ^ e by ring, abs_of_nonneg (by positivity)]
      have := mul_lt_mul_of_pos_right ha hE
      linarith
  · unfold Heap.length
    rw [hes', Option.map_some, sumLength_rounded hl']
    congr 3
    simp only [addAll, List.foldl_cons, List.foldl_nil]
    rw [show ((0 : Dbl Rd).val) = 0 from rfl, zero_add, Rd.fixed hfb]
    have hlo : ((4 * (j + k) + 3 : ℤ) : ℝ) * 2 ^ (e - 2) ≤ Rd.rnd ((k + b) * 2 ^ e + (j + a) * 2 ^ e) := by
      refine Rd.ge_of_ge ⟨_, _, by rw [abs_of_pos (by omega)]; omega, rfl⟩ ?_
      have h4 : (2 : ℝ) ^ e = 4 * 2 ^ (e - 2) := by
        rw [hhalf, half_zpow (e - 1), show e - 1 - 1 = e - 2 by ring]; ring
      rw [h4]
      push_cast
      have := mul_le_mul_of_nonneg_right hab (two_zpow_pos (e - 2)).le
      nlinarith
    have hhi : Rd.rnd ((k + b) * 2 ^ e + (j + a) * 2 ^ e) ≤ ((j + k + 1 : ℤ) : ℝ) * 2 ^ e := by
      refine Rd.le_of_le ⟨_, _, by rw [abs_of_pos (by omega)]; omega, rfl⟩ ?_
      push_cast
      have := mul_lt_mul_of_pos_right (by linarith : a + b < 1) hE
      linarith
    have h4 : (2 : ℝ) ^ e = 4 * 2 ^ (e - 2) := by
      rw [hhalf, half_zpow (e - 1), show e - 1 - 1 = e - 2 by ring]; ring
    rw [Rd.absorb (m := m + j + k + 1) (e := e) (by omega) (by omega)]
    have hhalf' : (2 : ℝ) ^ (e - 1) = 2 * 2 ^ (e - 2) := by rw [half_zpow (e - 1), show e - 1 - 1 = e - 2 by ring]
    push_cast at hlo hhi ⊢
    generalize Rd.rnd (((k : ℝ) + b) * 2 ^ e + (j + a) * 2 ^ e) = s at *
    rw [hhalf', abs_lt]
    have hq := two_zpow_pos (e - 2)
    rw [h4] at hhi ⊢
    generalize (2 : ℝ) ^ (e - 2) = q at *
    constructor <;> linarith

/-- Lengths of about 1, 1/8 and 1/16: `2^52 + 1`, `2^49 + 3/8` and `2^48 + 3/8` units of 2^-52. -/
example : let x : Nat → ℝ := fun i => if i = 0 then ((2 ^ 52 + 1 : ℤ) : ℝ) * 2 ^ (-52 : ℤ) else
      if i = 1 then (((2 ^ 49 : ℤ) : ℝ) + 3 / 8) * 2 ^ (-52 : ℤ) else (((2 ^ 48 : ℤ) : ℝ) + 3 / 8) * 2 ^ (-52 : ℤ)
    (threeDrifts (Rd := Rd) x).length 1 0 ≠ (threeDrifts (Rd := Rd) x).length 1 1 := by
  intro x
  obtain ⟨h1, h2⟩ := length_order_fails (h := threeDrifts (Rd := Rd) x) (fuel := 1) (l := 0) (l' := 1) (m := 2 ^ 52 + 1) (j := 2 ^ 49) (k := 2 ^ 48)
    (e := -52) (a := 3 / 8) (b := 3 / 8) (threeDrifts_elements x).1 (threeDrifts_elements x).2
    (.cons (threeDrifts_length x 0) (.cons (threeDrifts_length x 1) (.cons (threeDrifts_length x 2) .nil)))
    (.cons (threeDrifts_length x 2) (.cons (threeDrifts_length x 1) (.cons (threeDrifts_length x 0) .nil)))
    ⟨2 ^ 51 + 3, -55, by norm_num, by norm_num⟩ (by norm_num) (by norm_num) (by norm_num) (by norm_num) (by norm_num) (by norm_num)
    (by norm_num) (by norm_num) (by norm_num) (by norm_num)
  rw [h1, h2]
  simp only [ne_eq, Option.some.injEq, Except.ok.injEq, Dbl.mk.injEq]
  norm_num

end Verif.Lattice
