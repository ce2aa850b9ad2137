import Verif.Trace.PropsTraceLine
import Verif.Trace.PropsWin

/-!
# Property C69: cavities made by the handlers of `TraceWin` when a frequency is set
-/

namespace Verif.Trace

open Verif.Lattice

variable {R : Type}

/-- An element with the given number parameters at the end of the line. -/
def cavity (h : Heap R) (name type : Str) (ps : List (Str × R)) : Elem R :=
  ⟨name, type, ps.map fun p => (p.1, .num p.2), (h.line 0).top⟩

theorem add_exact (s : WState R) (name type : Str) (ps : List (Str × R)) (hf : dget (s.heap.line 0).elements name = none)
    (hp : ∀ k ∈ ps.map Prod.fst, k ∉ reserved ∧ lower k = k) (hn : (ps.map Prod.fst).Nodup) (ht : strip (lower type) = type) :
    s.add name type ps = ({ s with heap := push s.heap (cavity s.heap name type ps) }, none) := by
  rw [add_fresh s name type ps hf fun k hk => (hp k hk).1]
  have hl : ∀ p ∈ ps, lower p.1 = p.1 := fun p hq => (hp p.1 (List.mem_map_of_mem hq)).2
  have : initParams (ps.map fun kv => (kv.1, PVal.num kv.2)) = ps.map fun kv => (kv.1, PVal.num kv.2) := by
    rw [initParams_distinct]
    · rw [List.map_map]
      refine List.map_congr_left ?_
      intro p hq
      simp only [Function.comp]
      rw [hl p hq]
    · rw [List.map_map]
      have e : ps.map ((fun p : Str × PVal R => lower p.1) ∘ fun kv => (kv.1, PVal.num kv.2)) = ps.map Prod.fst := by
        refine List.map_congr_left ?_
        intro p hq
        exact hl p hq
      rw [e]
      exact hn
  unfold mkElem cavity
  rw [this, ht]

theorem item_ok {ps : Dict Str R} {k : Str} {x : R} (h : dget ps k = some x) : item ps k = .ok x := by
  unfold item
  rw [h]

/-- **C69, cells.** With a frequency a group of `n` cells becomes one cavity of length `β (c / f) n`, with the field times the length as voltage. -/
theorem win_ncells_exact (W : WNums R) (name : Str) (ps : Dict Str R) (s : WState R) {f beta n phase volt : R} (hfreq : dget s.globals "frequency".toList = some f)
    (h0 : W.truthy f = true) (hb : dget ps "BETA".toList = some beta) (hn : dget ps "N".toList = some n) (hp : dget ps "PHASE".toList = some phase)
    (hv : dget ps "VOLT".toList = some volt) (hnew : dget (s.heap.line 0).elements (name ++ "cav".toList) = none) :
    handleNcells W name ps s = ({ s with heap := push s.heap (cavity s.heap (name ++ "cav".toList) "rfca".toList
      [("l".toList, W.mul (W.mul beta (W.div W.c f)) n), ("volt".toList, W.mul volt (W.mul (W.mul beta (W.div W.c f)) n)),
       ("phase".toList, W.add phase W.ninety), ("frequency".toList, f)]) }, none) := by
  unfold handleNcells
  rw [hfreq]
  simp only
  rw [if_pos h0, item_ok hb, item_ok hn, item_ok hp, item_ok hv]
  simp only
  refine add_exact s _ _ _ hnew ?_ ?_ (by decide)
  · simp only [List.map_cons, List.map_nil]
    decide
  · simp only [List.map_cons, List.map_nil]
    decide

/-- **C69, field maps.** With a frequency and a voltage a field map becomes a cavity. -/
theorem win_field_map_exact (W : WNums R) (name : Str) (ps : Dict Str R) (s : WState R) {f l phase volt : R} (hfreq : dget s.globals "frequency".toList = some f)
    (hl : dget ps "L".toList = some l) (hp : dget ps "PHASE".toList = some phase) (hv : dget ps "VOLT".toList = some volt)
    (hnew : dget (s.heap.line 0).elements (name ++ "cav".toList) = none) :
    handleFieldMap W name ps s = ({ s with heap := push s.heap (cavity s.heap (name ++ "cav".toList) "rfca".toList
      [("l".toList, l), ("volt".toList, W.mul volt W.mega), ("phase".toList, phase), ("frequency".toList, f)]) }, none) := by
  unfold handleFieldMap
  rw [item_ok hfreq, item_ok hl, item_ok hp, item_ok hv]
  simp only
  refine add_exact s _ _ _ hnew ?_ ?_ (by decide)
  · simp only [List.map_cons, List.map_nil]
    decide
  · simp only [List.map_cons, List.map_nil]
    decide

/-- **C69, cells of a drift tube linac.** With a frequency the cell becomes two quadrupoles and a cavity between them that has this frequency. -/
theorem win_dtl_exact (W : WNums R) (name : Str) (ps : Dict Str R) (s : WState R) {f l q1 q2 b1 b2 phase volt : R}
    (hfreq : dget s.globals "frequency".toList = some f) (hl : dget ps "L".toList = some l) (h1 : dget ps "LQ1".toList = some q1)
    (h2 : dget ps "LQ2".toList = some q2) (hb1 : dget ps "B1".toList = some b1) (hb2 : dget ps "B2".toList = some b2)
    (hp : dget ps "PHASE".toList = some phase) (hv : dget ps "VOLT".toList = some volt)
    (hnew : ∀ suf ∈ ["_q1".toList, "cav".toList, "_q2".toList], dget (s.heap.line 0).elements (name ++ suf) = none) :
    handleDtl W name ps s = (⟨
      push (push (push s.heap (cavity s.heap (name ++ "_q1".toList) "quadrupole".toList [("k1".toList, b1), ("l".toList, q1)]))
        (cavity s.heap (name ++ "cav".toList) "rfca".toList [("l".toList, W.sub (W.sub l q1) q2), ("volt".toList, volt),
          ("phase".toList, W.add phase W.ninety), ("frequency".toList, f)]))
        (cavity s.heap (name ++ "_q2".toList) "quadrupole".toList [("k1".toList, b2), ("l".toList, q2)]), s.count, s.globals⟩, none) := by
  have hne : ∀ a ∈ ["_q1".toList, "cav".toList, "_q2".toList], ∀ b ∈ ["_q1".toList, "cav".toList, "_q2".toList], a ≠ b → name ++ a ≠ name ++ b :=
    fun a _ b _ hab h => hab (List.append_cancel_left h)
  have pres : ∀ (h : Heap R) (x : Elem R) (n : Str), n ≠ x.name → dget ((push h x).line 0).elements n = dget (h.line 0).elements n :=
    fun h x n hn => push_elements h x n hn
  unfold handleDtl
  rw [item_ok hl, item_ok h1, item_ok h2, item_ok hb1, item_ok hb2, item_ok hp]
  simp only
  rw [add_exact s _ "quadrupole".toList [("k1".toList, b1), ("l".toList, q1)] (hnew _ (by simp)) (by simp only [List.map_cons, List.map_nil]; decide)
    (by simp only [List.map_cons, List.map_nil]; decide) (by decide)]
  simp only
  rw [hfreq, item_ok hv]
  simp only [Option.getD_some]
  rw [add_exact { s with heap := push s.heap (cavity s.heap (name ++ "_q1".toList) "quadrupole".toList [("k1".toList, b1), ("l".toList, q1)]) } _ "rfca".toList
    [("l".toList, W.sub (W.sub l q1) q2), ("volt".toList, volt), ("phase".toList, W.add phase W.ninety), ("frequency".toList, f)]
    (by
      simp only
      rw [pres _ _ _ (hne _ (by simp) _ (by simp) (by decide))]
      exact hnew _ (by simp))
    (by simp only [List.map_cons, List.map_nil]; decide) (by simp only [List.map_cons, List.map_nil]; decide) (by decide)]
  simp only
  rw [add_exact _ _ "quadrupole".toList [("k1".toList, b2), ("l".toList, q2)]
    (by
      simp only
      rw [pres _ _ _ (hne _ (by simp) _ (by simp) (by decide)), pres _ _ _ (hne _ (by simp) _ (by simp) (by decide))]
      exact hnew _ (by simp))
    (by simp only [List.map_cons, List.map_nil]; decide) (by simp only [List.map_cons, List.map_nil]; decide) (by decide)]
  rfl

/-- C69 is false for field maps even with a frequency: the handler asks for a voltage, which is not among the numbers of a field map line. -/
theorem win_field_map_fails (W : WNums R) (name cls : Str) (names : List Str) (hc : winClass "field_map".toList = some (cls, names)) (values : List R) (s : WState R) :
    winHandler W "field_map".toList name (winConvert W (names.zip values)) s = (s, some .keyError) := by
  have hnames : "VOLT".toList ∉ names := by
    have : ((winClass "field_map".toList).map fun x => decide ("VOLT".toList ∉ x.2)) = some true := by decide +kernel
    rw [hc] at this
    simpa using this
  have hv : item (winConvert W (names.zip values)) "VOLT".toList = .error .keyError := by
    unfold item
    rw [winConvert_eq W _ (zip_nodup hc values), dget_convAll, dget_zip_none fun hm => hnames (List.mem_of_mem_take hm)]
    rfl
  unfold winHandler
  rw [if_neg (by decide), if_neg (by decide), if_neg (by decide), if_pos rfl]
  unfold handleFieldMap
  rw [hv]
  split
  · rename_i h _ _
    cases h
  · rfl

/-- Without a frequency the cells are refused by their handler, and with the frequency zero the program stops. -/
theorem win_ncells_refused (W : WNums R) (name : Str) (ps : Dict Str R) (s : WState R) :
    (dget s.globals "frequency".toList = none → handleNcells W name ps s = (s, some .keyError)) ∧
    ∀ f, dget s.globals "frequency".toList = some f → W.truthy f = false → handleNcells W name ps s = (s, some .assertionError) := by
  unfold handleNcells
  constructor
  · intro h
    rw [h]
  · intro f h h0
    rw [h]
    simp only
    rw [if_neg (by rw [h0]; decide)]

/-! ## Examples -/

/-- A state with the frequency 4. -/
def exFreq : WState Int := ⟨Heap.init (some "b".toList), 3, [("frequency".toList, 4)]⟩

/-- Numbers with the speed of light 12. -/
def exWin12 : WNums Int := { exWin with c := 12 }

/-- Two cells: the length is 5 · (12 / 4) · 2. -/
example : (handleNcells exWin12 "e3".toList [("N".toList, 2), ("BETA".toList, 5), ("VOLT".toList, 7), ("PHASE".toList, -30)] exFreq).1.heap.elem 0 =
    ⟨"e3cav".toList, "rfca".toList, [("l".toList, .num 30), ("volt".toList, .num 210), ("phase".toList, .num 60), ("frequency".toList, .num 4)], 0⟩ := by
  rw [win_ncells_exact exWin12 "e3".toList _ exFreq (f := 4) (beta := 5) (n := 2) (phase := -30) (volt := 7) rfl (by decide) (by decide) (by decide)
    (by decide) (by decide) (by decide)]
  decide +kernel

example : (handleFieldMap exWin12 "e3".toList [("L".toList, 2), ("VOLT".toList, 7), ("PHASE".toList, -30)] exFreq).1.heap.elem 0 =
    ⟨"e3cav".toList, "rfca".toList, [("l".toList, .num 2), ("volt".toList, .num 7000000), ("phase".toList, .num (-30)), ("frequency".toList, .num 4)], 0⟩ := by
  rw [win_field_map_exact exWin12 "e3".toList _ exFreq (f := 4) (l := 2) (phase := -30) (volt := 7) rfl (by decide) (by decide) (by decide) (by decide)]
  decide +kernel

example : (handleDtl exWin12 "e3".toList [("L".toList, 20), ("LQ1".toList, 3), ("LQ2".toList, 4), ("B1".toList, 5), ("B2".toList, 6), ("VOLT".toList, 7),
    ("PHASE".toList, -30)] exFreq).1.heap.elem 1 =
    ⟨"e3cav".toList, "rfca".toList, [("l".toList, .num 13), ("volt".toList, .num 7), ("phase".toList, .num 60), ("frequency".toList, .num 4)], 0⟩ := by
  rw [win_dtl_exact exWin12 "e3".toList _ exFreq (f := 4) (l := 20) (q1 := 3) (q2 := 4) (b1 := 5) (b2 := 6) (phase := -30) (volt := 7) rfl (by decide) (by decide)
    (by decide) (by decide) (by decide) (by decide) (by decide) (by decide)]
  decide +kernel

example : ∃ cls names, winClass "field_map".toList = some (cls, names) := ⟨_, _, rfl⟩

end Verif.Trace
