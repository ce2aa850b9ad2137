import Verif.Lattice.LemmasFlat
import Verif.Lattice.LemmasYaml
import Verif.Trace.PropsCavities
import Verif.Trace.TraceWin

/-! # Lemmas on the TraceWin model -/

namespace Verif.Trace

open Verif.Lattice

variable {R : Type}

/-! ## Unit conversion -/

/-- The conversion of one parameter. -/
def conv1 (W : WNums R) (k : Str) (x : R) : R :=
  if k = "L".toList ∨ k = "LQ1".toList ∨ k = "LQ2".toList then W.mul x W.milli
  else if k = "frequency".toList then W.mul x W.mega else x

/-- Conversion of all parameters. -/
def convAll (W : WNums R) (ps : Dict Str R) : Dict Str R := ps.map fun p => (p.1, conv1 W p.1 p.2)

theorem convStep (W : WNums R) (key : Str) (f : R) (ps : Dict Str R) (hn : (ps.map Prod.fst).Nodup) :
    convKey W ps (key, f) = ps.map fun p => (p.1, if p.1 = key then W.mul p.2 f else p.2) := by
  unfold convKey
  simp only
  induction ps with
  | nil => rfl
  | cons p ps ih =>
    rw [List.map_cons, List.nodup_cons] at hn
    rw [dget_cons, List.map_cons]
    by_cases hp : p.1 = key
    · have hrest : ∀ q ∈ ps, q.1 ≠ key := by
        intro q hq hqk
        exact hn.1 (by rw [hp, ← hqk]; exact List.mem_map_of_mem hq)
      simp only [if_pos hp]
      rw [dset, if_pos hp]
      rw [hp]
      congr 1
      refine (List.map_id ps).symm.trans (List.map_congr_left ?_)
      intro q hq
      rw [if_neg (hrest q hq)]
      rfl
    · simp only [if_neg hp]
      rw [← ih hn.2]
      cases dget ps key with
      | none => rfl
      | some x =>
        simp only
        rw [dset, if_neg hp]

theorem winConvert_eq (W : WNums R) (ps : Dict Str R) (hn : (ps.map Prod.fst).Nodup) : winConvert W ps = convAll W ps := by
  have keys : ∀ (g : Str → R → R) (qs : Dict Str R), (qs.map fun p => (p.1, g p.1 p.2)).map Prod.fst = qs.map Prod.fst := by
    intro g qs
    rw [List.map_map]
    rfl
  unfold winConvert winConv
  simp only [List.foldl_cons, List.foldl_nil]
  rw [convStep W "L".toList W.milli ps hn]
  have n1 := keys (fun k x => if k = "L".toList then W.mul x W.milli else x) ps
  rw [convStep W "LQ1".toList W.milli _ (by rw [n1]; exact hn)]
  have n2 := keys (fun k x => if k = "LQ1".toList then W.mul x W.milli else x)
    (ps.map fun p => (p.1, if p.1 = "L".toList then W.mul p.2 W.milli else p.2))
  rw [convStep W "LQ2".toList W.milli _ (by rw [n2, n1]; exact hn)]
  have n3 := keys (fun k x => if k = "LQ2".toList then W.mul x W.milli else x)
    ((ps.map fun p => (p.1, if p.1 = "L".toList then W.mul p.2 W.milli else p.2)).map
      fun p => (p.1, if p.1 = "LQ1".toList then W.mul p.2 W.milli else p.2))
  rw [convStep W "frequency".toList W.mega _ (by rw [n3, n2, n1]; exact hn)]
  rw [List.map_map, List.map_map, List.map_map]
  unfold convAll
  refine List.map_congr_left ?_
  intro p _
  simp only [Function.comp_apply, conv1]
  congr 1
  by_cases h1 : p.1 = "L".toList
  · rw [h1]
    simp (decide := true)
  · by_cases h2 : p.1 = "LQ1".toList
    · rw [h2]
      simp (decide := true)
    · by_cases h3 : p.1 = "LQ2".toList
      · rw [h3]
        simp (decide := true)
      · rw [if_neg h1, if_neg h2, if_neg h3, if_neg (show ¬ (_ ∨ _ ∨ _) by tauto)]

theorem zip_keys {names : List Str} {values : List R} : (names.zip values).map Prod.fst = names.take values.length := by
  induction names generalizing values with
  | nil => simp
  | cons n names ih =>
    cases values with
    | nil => rfl
    | cons v values => rw [List.zip_cons_cons, List.map_cons, ih, List.length_cons, List.take_succ_cons]

theorem dget_convAll (W : WNums R) (ps : Dict Str R) (k : Str) : dget (convAll W ps) k = (dget ps k).map (conv1 W k) := by
  unfold convAll
  induction ps with
  | nil => rfl
  | cons p ps ih =>
    rw [List.map_cons, dget_cons, dget_cons]
    by_cases h : p.1 = k
    · simp only [if_pos h, h]
      rfl
    · simp only [if_neg h]
      exact ih

theorem dget_zip_none {names : List Str} {values : List R} {k : Str} (h : k ∉ names.take values.length) :
    dget (names.zip values) k = none := by
  rw [dget_none_iff]
  intro p hp hk
  refine h ?_
  rw [← zip_keys (values := values), ← hk]
  exact List.mem_map_of_mem hp

/-! ## Adding a new element -/

/-- The heap with a new element at the end of beamline 0. -/
def push (h : Heap R) (x : Elem R) : Heap R where
  elem := fun k => if k = h.nElem then x else h.elem k
  nElem := h.nElem + 1
  line := fun k => if k = 0 then
      { h.line 0 with elements := dset (h.line 0).elements x.name h.nElem, seq := (h.line 0).seq ++ [.elem h.nElem] }
    else h.line k
  nLine := h.nLine

/-- The element with number parameters. -/
def mkElem (name type : Str) (ps : List (Str × R)) (top : Nat) : Elem R :=
  ⟨name, strip (lower type), initParams (ps.map fun kv => (kv.1, .num kv.2)), top⟩

theorem add_fresh (s : WState R) (name type : Str) (ps : List (Str × R))
    (hf : dget (s.heap.line 0).elements name = none) (hp : ∀ k ∈ ps.map Prod.fst, k ∉ reserved) :
    s.add name type ps = ({ s with heap := push s.heap (mkElem name type ps (s.heap.line 0).top) }, none) := by
  have hne : newElem name type (ps.map fun kv => (kv.1, PVal.num kv.2)) =
      .ok ⟨name, strip (lower type), initParams (ps.map fun kv => (kv.1, .num kv.2)), 0⟩ := by
    unfold newElem
    rw [if_neg]
    rw [List.any_eq_true]
    rintro ⟨kv, h1, h2⟩
    obtain ⟨q, hq, rfl⟩ := List.mem_map.1 h1
    exact hp q.1 (List.mem_map_of_mem hq) (List.contains_iff_mem.1 h2)
  have huse : ∃ r, s.heap.useElement 0 name type (ps.map fun kv => (kv.1, PVal.num kv.2)) = .ok r ∧ r.2 = s.heap.nElem ∧
      r.1.nElem = s.heap.nElem + 1 ∧ r.1.nLine = s.heap.nLine ∧
      r.1.elem = (fun k => if k = s.heap.nElem then
        ⟨name, strip (lower type), initParams (ps.map fun kv => (kv.1, .num kv.2)), 0⟩ else s.heap.elem k) ∧
      r.1.line = (fun k => if k = 0 then { s.heap.line 0 with elements := dset (s.heap.line 0).elements name s.heap.nElem }
        else s.heap.line k) := by
    unfold Heap.useElement
    rw [hf]
    simp only
    rw [hne]
    exact ⟨_, rfl, rfl, rfl, rfl, rfl, rfl⟩
  obtain ⟨⟨h1, e⟩, hr, he, k1, k2, k3, k4⟩ := huse
  simp only at he k1 k2 k3 k4
  unfold WState.add
  rw [addElement_eq hr]
  simp only
  congr 2
  obtain ⟨el, ne, li, nl⟩ := h1
  simp only at k1 k2 k3 k4
  subst k1 k2 k3 k4
  unfold push Heap.append Heap.setElem Heap.setLine mkElem
  simp only [he, if_true, Heap.mk.injEq, and_true, true_and]
  constructor
  · funext k
    by_cases hk : k = s.heap.nElem
    · simp only [if_pos hk]
    · simp only [if_neg hk]
  · funext k
    by_cases hk : k = 0
    · simp only [if_pos hk]
    · simp only [if_neg hk]

end Verif.Trace
