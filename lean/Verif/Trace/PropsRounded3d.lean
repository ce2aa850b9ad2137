import Mathlib.Analysis.SpecialFunctions.Trigonometric.Basic
import Verif.Trace.PropsTraceLine
import Verif.Py.Near
import Verif.Trace.Rounded3d

/-!
# Property C175: elements of TRACE 3-D files in double precision
-/

namespace Verif.Trace

open Verif.Py Verif.Lattice Verif.Lte

/-- Exact operations and units. -/
noncomputable def exactTrace (float : Str → ℝ) : FNums ℝ where
  float := float
  mul x y := x * y
  abs x := |x|
  conv := traceConv (1 / 1000) (Real.pi / 180) 1000000

/-- Parameters that TRACE 3-D gives in the units of the beamline. -/
def unitless : List Str :=
  ["k1".toList, "of".toList, "index".toList, "vf".toList, "k2".toList, "phase".toList, "egf".toList, "change_p0".toList, "h".toList]

/-- The same parameter with almost the same number: up to six roundings, and without any for numbers that need no conversion. -/
def CloseParam (p q : Str × PVal ℝ) : Prop :=
  p.1 = q.1 ∧ ∃ x y : ℝ, p.2 = .num x ∧ q.2 = .num y ∧ |x - y| ≤ 7 * 2 ^ (-53 : ℤ) * |y| ∧ (p.1 ∈ unitless → x = y)

/-- The same element with almost the same numbers. -/
structure CloseElem (x y : Elem ℝ) : Prop where
  name : x.name = y.name
  type : x.type = y.type
  params : List.Forall₂ CloseParam x.params y.params

variable (R : Rounding)

theorem milli3_near (x : ℝ) : Near (201 / 100 * 2 ^ (-53 : ℤ)) (R.rnd (x * R.rnd (1 / 1000))) (x * (1 / 1000)) := by
  have h1 : Near (2 ^ (-53 : ℤ)) (R.rnd (1 / 1000)) (1 / 1000) := ((Near.refl _).rnd R).weaken (by norm_num)
  exact (((Near.refl x).mul h1).rnd R).weaken (by norm_num)

theorem degree_near (x : ℝ) : Near (302 / 100 * 2 ^ (-53 : ℤ)) (R.rnd (x * R.rnd (R.rnd Real.pi / 180))) (x * (Real.pi / 180)) := by
  have h1 : Near (2 ^ (-53 : ℤ)) (R.rnd Real.pi) Real.pi := ((Near.refl _).rnd R).weaken (by norm_num)
  have h2 : Near (201 / 100 * 2 ^ (-53 : ℤ)) (R.rnd (R.rnd Real.pi * (1 / 180))) (Real.pi * (1 / 180)) :=
    ((h1.mul (Near.refl (1 / 180))).rnd R).weaken (by norm_num)
  rw [mul_one_div, mul_one_div] at h2
  exact (((Near.refl x).mul h2).rnd R).weaken (by norm_num)

theorem mega_near (x : ℝ) : Near (2 ^ (-53 : ℤ)) (R.rnd (x * 1000000)) (x * 1000000) :=
  ((Near.refl _).rnd R).weaken (by norm_num)

theorem arc_near (r a : ℝ) :
    Near (7 * 2 ^ (-53 : ℤ)) |R.rnd (R.rnd (r * R.rnd (1 / 1000)) * R.rnd (a * R.rnd (R.rnd Real.pi / 180)))| |r * (1 / 1000) * (a * (Real.pi / 180))| := by
  have h := (((milli3_near R r).mul (degree_near R a)).rnd R).weaken (ε' := 7 * 2 ^ (-53 : ℤ)) (by norm_num)
  unfold Near at h ⊢
  rw [abs_abs]
  exact (abs_abs_sub_abs_le _ _).trans h

theorem scale_close (u : TUnit) (x : ℝ) :
    |u.scale (rTrace R float).mul (R.rnd (1 / 1000)) (R.rnd (R.rnd Real.pi / 180)) 1000000 x -
      u.scale (exactTrace float).mul (1 / 1000) (Real.pi / 180) 1000000 x| ≤
      7 * 2 ^ (-53 : ℤ) * |u.scale (exactTrace float).mul (1 / 1000) (Real.pi / 180) 1000000 x| := by
  cases u
  · simp only [TUnit.scale, sub_self, abs_zero]
    positivity
  · exact (milli3_near R x).weaken (by norm_num)
  · exact (degree_near R x).weaken (by norm_num)
  · exact (mega_near R x).weaken (by norm_num)

/-- Numbers that need no conversion have no unit. -/
theorem kind_unitless {n : Nat} {cls : Str} {fs : List (Str × TUnit)} (h : kind n = some (cls, fs)) :
    ∀ p ∈ fs, lower p.1 ∈ unitless → p.2 = .plain := by
  unfold kind at h
  split at h <;> simp only [Option.some.injEq, Prod.mk.injEq, reduceCtorEq] at h <;> obtain ⟨-, rfl⟩ := h <;> decide +kernel

theorem element_close (float : Str → ℝ) (t : TLine) :
    CloseElem (t.element (rTrace R float) (R.rnd (1 / 1000)) (R.rnd (R.rnd Real.pi / 180)) 1000000)
      (t.element (exactTrace float) (1 / 1000) (Real.pi / 180) 1000000) := by
  unfold TLine.element
  cases hk : kind (natVal t.typ) with
  | none => exact ⟨rfl, rfl, List.Forall₂.nil⟩
  | some v =>
    obtain ⟨cls, fs⟩ := v
    refine ⟨rfl, rfl, List.rel_append ?_ ?_⟩
    · rw [List.forall₂_map_left_iff, List.forall₂_map_right_iff]
      refine List.forall₂_same.2 fun p hp => ⟨rfl, _, _, rfl, rfl, scale_close R p.1.2 p.2, ?_⟩
      intro hu
      rw [kind_unitless hk p.1 (List.of_mem_zip hp).1 hu]
      rfl
    · rw [show t.values (rTrace R float) = t.values (exactTrace float) from rfl]
      split
      · rename_i angle r _ _ _
        refine List.Forall₂.cons ⟨rfl, _, _, rfl, rfl, arc_near R r angle, ?_⟩ List.Forall₂.nil
        intro hu
        exact absurd hu (show "l".toList ∉ unitless by decide)
      · exact List.Forall₂.nil

/-- **C175.** With an empty table of handlers every entry but the last becomes the element that it describes, in SI units and with the arc length of bends, up
to `7 · 2 ^ (-53)` of each number; numbers without a unit are those of the file. Missing: as for C129. -/
theorem rounded_trace_partial (float : Str → ℝ) (name : Str) (file : List Str) (ts : List TLine) (last : TLine)
    (hs : sanitize file = .ok ((ts ++ [last]).map TLine.text)) (hok : ∀ t ∈ ts, t.Ok) (hk : ∀ t ∈ ts, (kind (natVal t.typ)).isSome)
    (hb : ∀ t ∈ ts, natVal t.typ = 8 → 2 ≤ (t.numbers.flatMap fun p => p.2.reads).length) (hnd : (ts.map fun t => strip t.name).Nodup) :
    ∃ (h : Heap ℝ) (es : List Nat), parseFile (rTrace R float) (some fun _ => false) name file = .ok h ∧ (h.line 0).seq = es.map Item.elem ∧
      List.Forall₂ CloseElem (es.map h.elem) (ts.map (TLine.element (exactTrace float) (1 / 1000) (Real.pi / 180) 1000000)) := by
  obtain ⟨h, es, h1, h2, h3⟩ := trace_file_partial (rTrace R float) (R.rnd (1 / 1000)) (R.rnd (R.rnd Real.pi / 180)) 1000000 rfl name file ts last hs hok hk
    (fun t ht h8 => by rw [TLine.values, List.length_map]; exact hb t ht h8) hnd
  refine ⟨h, es, h1, h2, ?_⟩
  rw [h3, List.forall₂_map_left_iff, List.forall₂_map_right_iff]
  exact List.forall₂_same.2 fun t _ => element_close R float t

/-- A bend whose arc length is that of its own radius and angle, up to one rounding. -/
def ArcFits (x : Elem ℝ) : Prop :=
  ∃ r a l : ℝ, Params.getItem x.params "r".toList = some (.num r) ∧ Params.getItem x.params "angle".toList = some (.num a) ∧
    Params.getItem x.params "l".toList = some (.num l) ∧ 0 ≤ l ∧ |l - abs (r * a)| ≤ 2 ^ (-53 : ℤ) * |r * a|

theorem standardizeElem_fits (float : Str → ℝ) {x y : Elem ℝ} (h : standardizeElem (rTrace R float) x = .ok y) :
    y.type = x.type ∧ (y.type = "sbend".toList → ArcFits y) := by
  unfold standardizeElem at h
  split at h
  · rename_i ht
    split at h
    · rename_i r a hr ha
      injection h with h
      subst h
      refine ⟨rfl, fun _ => ⟨r, a, |R.rnd (r * a)|, ?_, ?_, ?_, abs_nonneg _, ?_⟩⟩
      · rw [← hr]
        simp only [Params.getItem, Params.setItem]
        rw [dget_dset, if_neg (by decide)]
      · rw [← ha]
        simp only [Params.getItem, Params.setItem]
        rw [dget_dset, if_neg (by decide)]
      · simp only [Params.getItem, Params.setItem]
        rw [dget_dset, if_pos rfl]
        rfl
      · refine (abs_abs_sub_abs_le _ _).trans ?_
        exact (R.error _).trans (le_of_eq (mul_comm _ _))
    · exact absurd h (by simp)
    · exact absurd h (by simp)
  · rename_i ht
    injection h with h
    subst h
    exact ⟨rfl, fun h => absurd h ht⟩

theorem standardize_fits (float : Str → ℝ) : ∀ (is : List Item) (h h' : Heap ℝ), standardize (rTrace R float) is h = .ok h' →
    (∀ e, (h'.elem e).type = (h.elem e).type) ∧ (∀ e, ArcFits (h.elem e) → (h.elem e).type = "sbend".toList → ArcFits (h'.elem e)) ∧
      ∀ e, Item.elem e ∈ is → (h'.elem e).type = "sbend".toList → ArcFits (h'.elem e) := by
  intro is
  induction is with
  | nil =>
    intro h h' hs
    rw [standardize] at hs
    injection hs with hs
    subst hs
    exact ⟨fun _ => rfl, fun _ h _ => h, fun e he => absurd he (by simp)⟩
  | cons i is ih =>
    intro h h' hs
    cases i with
    | line l =>
      rw [standardize] at hs
      obtain ⟨a, b, c⟩ := ih h h' hs
      exact ⟨a, b, fun e he => c e (by simpa using he)⟩
    | elem k =>
      rw [standardize] at hs
      split at hs
      · rename_i x hx
        obtain ⟨t1, t2⟩ := standardizeElem_fits R float hx
        obtain ⟨a, b, c⟩ := ih _ h' hs
        have key : ∀ e, ((h.setElem k x).elem e) = if e = k then x else h.elem e := fun e => rfl
        refine ⟨?_, ?_, ?_⟩
        · intro e
          rw [a e, key]
          split
          · rename_i he
            rw [t1, he]
          · rfl
        · intro e he ht
          refine b e ?_ ?_ <;> rw [key]
          · split
            · rename_i hek
              exact t2 (by rw [t1, ← hek]; exact ht)
            · exact he
          · split
            · rename_i hek
              rw [t1, ← hek]; exact ht
            · exact ht
        · intro e he ht
          by_cases hek : e = k
          · have h3 : x.type = "sbend".toList := by
              have := a e
              rw [key, if_pos hek] at this
              rw [← this]; exact ht
            refine b e ?_ ?_ <;> rw [key, if_pos hek]
            · exact t2 h3
            · exact h3
          · refine c e ?_ ht
            simpa [hek] using he
      · exact absurd hs (by simp)

/-- **C175, bends.** In every beamline that is read, whatever the lines are, each bend has the arc length of its own radius and angle, up to one rounding, and
not a negative one. -/
theorem rounded_arc (float : Str → ℝ) (handlers : Option (Nat → Bool)) (name : Str) (file : List Str) (h : Heap ℝ)
    (hr : parseFile (rTrace R float) handlers name file = .ok h) :
    ∀ e, Item.elem e ∈ (h.line 0).seq → (h.elem e).type = "sbend".toList → ArcFits (h.elem e) := by
  have step : ∀ (line : Str) (h h' : Heap ℝ), parseElement (rTrace R float) handlers line h = .ok h' →
      ∀ e, Item.elem e ∈ (h'.line 0).seq → (h'.elem e).type = "sbend".toList → ArcFits (h'.elem e) := by
    intro line h h' hp
    unfold parseElement at hp
    split at hp
    · exact absurd hp (by simp)
    split at hp
    · exact absurd hp (by simp)
    split at hp
    · exact absurd hp (by simp)
    split at hp
    · exact absurd hp (by simp)
    split at hp
    · exact absurd hp (by simp)
    split at hp
    · exact absurd hp (by simp)
    · rw [standardize_line _ _ _ _ hp]
      exact (standardize_fits R float _ _ _ hp).2.2
  have lines : ∀ (ls : List Str) (h h' : Heap ℝ), parseLines (rTrace R float) handlers ls h = .ok h' →
      (∀ e, Item.elem e ∈ (h.line 0).seq → (h.elem e).type = "sbend".toList → ArcFits (h.elem e)) →
      ∀ e, Item.elem e ∈ (h'.line 0).seq → (h'.elem e).type = "sbend".toList → ArcFits (h'.elem e) := by
    intro ls
    induction ls with
    | nil =>
      intro h h' hp hi
      rw [parseLines] at hp
      injection hp with hp
      subst hp
      exact hi
    | cons l ls ih =>
      intro h h' hp _
      rw [parseLines] at hp
      split at hp
      · rename_i h1 he
        exact ih h1 h' hp (step l h h1 he)
      · exact absurd hp (by simp)
  unfold parseFile at hr
  split at hr
  · exact absurd hr (by simp)
  split at hr
  · exact absurd hr (by simp)
  · refine lines _ _ _ hr ?_
    intro e he
    have : ((Heap.init (some name) : Heap ℝ).line 0).seq = [] := rfl
    rw [this] at he
    exact absurd he (by simp)

/-! ## Examples -/

/-- The file of the examples of C129: a drift, a bend and a quadrupole. -/
example (float : Str → ℝ) : ∃ (h : Heap ℝ) (es : List Nat), parseFile (rTrace R float) (some fun _ => false) "b".toList exTraceFile = .ok h ∧
    (h.line 0).seq = es.map Item.elem ∧
      List.Forall₂ CloseElem (es.map h.elem) (exEntries.map (TLine.element (exactTrace float) (1 / 1000) (Real.pi / 180) 1000000)) :=
  rounded_trace_partial R float "b".toList exTraceFile exEntries (exEntry "end" "1" [("1", "0")]) (by decide +kernel)
    (fun t ht => exEntries_ok t (List.mem_cons_of_mem _ ht)) (by decide +kernel) (by decide +kernel) (by decide +kernel)

/-- Its bend. -/
example (float : Str → ℝ) : ∃ (h : Heap ℝ) (e : Nat), parseFile (rTrace R float) (some fun _ => false) "b".toList exTraceFile = .ok h ∧
    Item.elem e ∈ (h.line 0).seq ∧ ArcFits (h.elem e) := by
  obtain ⟨h, es, h1, h2, h3⟩ := rounded_trace_partial R float "b".toList exTraceFile exEntries (exEntry "end" "1" [("1", "0")]) (by decide +kernel)
    (fun t ht => exEntries_ok t (List.mem_cons_of_mem _ ht)) (by decide +kernel) (by decide +kernel) (by decide +kernel)
  match es, h2, h3 with
  | [d, b, q], h2, h3 =>
    have hm : Item.elem b ∈ (h.line 0).seq := by rw [h2]; simp
    refine ⟨h, b, h1, hm, rounded_arc R float _ _ _ h h1 b hm ?_⟩
    simp only [exEntries, List.map_cons, List.forall₂_cons] at h3
    rw [h3.2.1.type]
    rfl
  | [], _, h3 => exact absurd h3.length_eq (by simp [exEntries])
  | [_], _, h3 => exact absurd h3.length_eq (by simp [exEntries])
  | [_, _], _, h3 => exact absurd h3.length_eq (by simp [exEntries])
  | _ :: _ :: _ :: _ :: _, _, h3 => exact absurd h3.length_eq (by simp [exEntries])

end Verif.Trace
