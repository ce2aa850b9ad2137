import Mathlib.Tactic.Abel
import Verif.Py.TextLemmas
import Verif.Trace.LemmasWin
import Verif.Trace.PropsNumbers

/-!
# TraceWin files: frequency (C69), names (C70), lengths (C71)
-/

namespace Verif.Trace

open Verif.Lattice

variable {R : Type}

/-- The elements made from a line: endings of the names, types and parameters. -/
def made (W : WNums R) (type cls : Str) (names : List Str) (values : List R) : List (Str × Str × List (Str × R)) :=
  match decide (type = "dtl_cel".toList), values with
  | true, l :: q1 :: q2 :: _ :: b1 :: b2 :: volt :: phase :: _ =>
    [("_q1".toList, "quadrupole".toList, [("k1".toList, b1), ("l".toList, W.mul q1 W.milli)]),
     ("cav".toList, "rfca".toList,
       [("l".toList, W.sub (W.sub (W.mul l W.milli) (W.mul q1 W.milli)) (W.mul q2 W.milli)), ("volt".toList, volt),
        ("phase".toList, W.add phase W.ninety), ("frequency".toList, W.one)]),
     ("_q2".toList, "quadrupole".toList, [("k1".toList, b2), ("l".toList, W.mul q2 W.milli)])]
  | _, _ => [([], cls, convAll W (names.zip values))]

/-- New elements at the end of the beamline. -/
def pushAll (name : Str) (ms : List (Str × Str × List (Str × R))) (h : Heap R) : Heap R :=
  ms.foldl (fun h m => push h (mkElem (name ++ m.1) m.2.1 m.2.2 (h.line 0).top)) h

/-- The tables of `TraceWin`. -/
def winTable : List (Str × Str × List Str) :=
  ["drift".toList, "quad".toList, "dtl_cel".toList, "ncells".toList, "set_sync_phase".toList, "freq".toList,
    "field_map".toList].filterMap fun t => (winClass t).map fun c => (t, c.1, c.2)

theorem winClass_mem {t cls : Str} {names : List Str} (h : winClass t = some (cls, names)) : (t, cls, names) ∈ winTable := by
  unfold winClass at h
  split_ifs at h with h1 h2 h3 h4 h5 h6 h7
  all_goals
    injection h with h
    injection h with ha hb
    subst ha hb
  · subst h1; decide +kernel
  · subst h2; decide +kernel
  · subst h3; decide +kernel
  · subst h4; decide +kernel
  · subst h5; decide +kernel
  · subst h6; decide +kernel
  · subst h7; decide +kernel

/-- Facts on the tables. -/
theorem winTable_facts : ∀ x ∈ winTable, x.2.2.Nodup ∧ (∀ n ∈ x.2.2, n ∉ reserved ∧ n ≠ "frequency".toList) ∧
    (x.2.1 = "rfca".toList → ∀ n ∈ x.2.2, lower n ≠ "frequency".toList) ∧ strip (lower x.2.1) = x.2.1 := by
  decide +kernel

theorem handler_generic (W : WNums R) {t : Str} (name : Str) {ps : Dict Str R} {s : WState R} (hg : s.globals = [])
    (ht : t ≠ "dtl_cel".toList) (hps : dget ps "frequency".toList = none) :
    winHandler W t name ps s = (s, some .keyError) := by
  unfold winHandler
  rw [if_neg ht]
  split_ifs
  · unfold handleFreq item
    rw [hps]
  · unfold handleNcells
    rw [hg]
    rfl
  · unfold handleFieldMap
    rw [hg]
    rfl
  · rfl

theorem dget_frequency {t cls : Str} {names : List Str} (h : winClass t = some (cls, names)) (values : List R) :
    dget (names.zip values) "frequency".toList = none :=
  dget_zip_none fun hm => ((winTable_facts _ (winClass_mem h)).2.1 _ (List.mem_of_mem_take hm)).2 rfl

theorem zip_nodup {t cls : Str} {names : List Str} (h : winClass t = some (cls, names)) (values : List R) :
    ((names.zip values).map Prod.fst).Nodup := by
  rw [zip_keys]
  exact (winTable_facts _ (winClass_mem h)).1.sublist (List.take_sublist _ _)

theorem dtl_class {t cls : Str} {names : List Str} (h : winClass t = some (cls, names)) (ht : t = "dtl_cel".toList) :
    names = ["L".toList, "LQ1".toList, "LQ2".toList, "GC".toList, "B1".toList, "B2".toList,
      "VOLT".toList, "PHASE".toList, "R".toList, "P".toList, "BETA_S".toList, "T_S".toList, "KTS".toList, "K2TS".toList] := by
  subst ht
  have : (winClass "dtl_cel".toList).map Prod.snd = some ["L".toList, "LQ1".toList, "LQ2".toList, "GC".toList, "B1".toList, "B2".toList,
      "VOLT".toList, "PHASE".toList, "R".toList, "P".toList, "BETA_S".toList, "T_S".toList, "KTS".toList, "K2TS".toList] := by
    decide +kernel
  rw [h] at this
  injection this

/-- Fewer than eight values. -/
theorem dtl_short (W : WNums R) {cls : Str} {names : List Str} (h : winClass "dtl_cel".toList = some (cls, names))
    {values : List R} (hv : values.length < 8) (name : Str) (s : WState R) :
    winHandler W "dtl_cel".toList name (convAll W (names.zip values)) s = (s, some .keyError) := by
  have hphase : item (convAll W (names.zip values)) "PHASE".toList = .error .keyError := by
    unfold item
    rw [dget_convAll, dget_zip_none]
    · rfl
    · rw [dtl_class h rfl]
      intro hm
      have : values.length ≤ 7 := by omega
      have := (List.take_subset_take_left _ this) hm
      revert this
      decide
  unfold winHandler
  rw [if_pos rfl]
  unfold handleDtl
  rw [hphase]
  split
  · rename_i heq
    cases heq
  · rfl

theorem push_elements (h : Heap R) (x : Elem R) (n : Str) (hne : n ≠ x.name) :
    dget ((push h x).line 0).elements n = dget (h.line 0).elements n := by
  show dget (dset (h.line 0).elements x.name h.nElem) n = _
  rw [dget_dset, if_neg hne]

/-- At least eight values. -/
theorem dtl_long (W : WNums R) {cls : Str} {names : List Str} (h : winClass "dtl_cel".toList = some (cls, names))
    (l q1 q2 g b1 b2 volt phase : R) (more : List R) (name : Str) (s : WState R) (hg : s.globals = [])
    (hf : ∀ suf ∈ ["_q1".toList, "cav".toList, "_q2".toList], dget (s.heap.line 0).elements (name ++ suf) = none) :
    winHandler W "dtl_cel".toList name (convAll W (names.zip (l :: q1 :: q2 :: g :: b1 :: b2 :: volt :: phase :: more))) s =
      (⟨pushAll name (made W "dtl_cel".toList cls names (l :: q1 :: q2 :: g :: b1 :: b2 :: volt :: phase :: more)) s.heap,
        s.count, s.globals⟩, none) := by
  have hit : ∀ k v, dget (names.zip (l :: q1 :: q2 :: g :: b1 :: b2 :: volt :: phase :: more)) k = some v →
      item (convAll W (names.zip (l :: q1 :: q2 :: g :: b1 :: b2 :: volt :: phase :: more))) k = .ok (conv1 W k v) := by
    intro k v hv
    unfold item
    rw [dget_convAll, hv]
    rfl
  rw [dtl_class h rfl] at hit ⊢
  have i1 := hit "LQ1".toList q1 rfl
  have i2 := hit "LQ2".toList q2 rfl
  have i3 := hit "L".toList l rfl
  have i4 := hit "B1".toList b1 rfl
  have i5 := hit "B2".toList b2 rfl
  have i6 := hit "PHASE".toList phase rfl
  have i7 := hit "VOLT".toList volt rfl
  unfold winHandler
  rw [if_pos rfl]
  unfold handleDtl
  rw [i1, i2, i3, i4, i5, i6]
  simp only
  have ne : ∀ a b : Str, a ≠ b → name ++ a ≠ name ++ b := fun a b hab h' => hab (List.append_cancel_left h')
  rw [add_fresh s _ _ _ (hf _ (by simp)) (by exact show ∀ k ∈ ["k1".toList, "l".toList], k ∉ reserved by decide)]
  simp only
  rw [hg, i7]
  simp only
  rw [add_fresh _ _ _ _ (by
    simp only
    rw [push_elements _ _ _ (ne _ _ (by decide))]
    exact hf _ (by simp)) (by exact show ∀ k ∈ ["l".toList, "volt".toList, "phase".toList, "frequency".toList], k ∉ reserved by decide)]
  simp only
  rw [add_fresh _ _ _ _ (by
    simp only
    rw [push_elements _ _ _ (ne _ _ (by decide)), push_elements _ _ _ (ne _ _ (by decide))]
    exact hf _ (by simp)) (by exact show ∀ k ∈ ["k1".toList, "l".toList], k ∉ reserved by decide)]
  rfl

/-- What one line does, given that no frequency is stored and the names are new. -/
theorem winLine_exact (W : WNums R) (line : Str) (s : WState R) (hg : s.globals = [])
    (hf : ∀ suf ∈ [[], "_q1".toList, "cav".toList, "_q2".toList],
      dget (s.heap.line 0).elements (('e' :: natStr s.count) ++ suf) = none) :
    winLine W line s = match splitWs line with
      | [] => .error .indexError
      | w :: _ => match winClass (lower w) with
        | none => .error .keyError
        | some (cls, names) =>
          .ok ⟨pushAll ('e' :: natStr s.count) (made W (lower w) cls names ((findAll matchNumber line).map W.float)) s.heap,
            s.count + 1 + (if names.length = ((findAll matchNumber line).map W.float).length then 0 else 1), []⟩ := by
  unfold winLine
  cases splitWs line with
  | nil => rfl
  | cons w ws =>
    simp only
    cases hc : winClass (lower w) with
    | none => rfl
    | some c =>
      obtain ⟨cls, names⟩ := c
      simp only
      generalize (findAll matchNumber line).map W.float = values
      rw [winConvert_eq W _ (zip_nodup hc values)]
      obtain ⟨_, hres, _, _⟩ := winTable_facts _ (winClass_mem hc)
      generalize hs' : ({ s with count := s.count + 1 + if names.length = values.length then 0 else 1 } : WState R) = s'
      have hheap : s'.heap = s.heap := by rw [← hs']
      have hg' : s'.globals = [] := by rw [← hs']; exact hg
      have hgen : s'.add ('e' :: natStr s.count) cls (convAll W (names.zip values)) =
          (⟨pushAll ('e' :: natStr s.count) [([], cls, convAll W (names.zip values))] s.heap, s'.count, []⟩, none) := by
        rw [add_fresh s' _ _ _ (by rw [hheap]; simpa using hf [] (by simp))]
        · unfold pushAll
          simp only [List.foldl_cons, List.foldl_nil, List.append_nil, hheap, hg']
        · unfold convAll
          rw [List.map_map]
          intro k hk
          refine (hres k ?_).1
          have : k ∈ (names.zip values).map Prod.fst := hk
          rw [zip_keys] at this
          exact List.mem_of_mem_take this
      have hcount : s'.count = s.count + 1 + if names.length = values.length then 0 else 1 := by rw [← hs']
      by_cases ht : lower w = "dtl_cel".toList
      · rw [ht] at hc ⊢
        by_cases hv : values.length < 8
        · rw [dtl_short W hc hv]
          simp only
          rw [hgen]
          simp only
          rw [hcount]
          congr 3
          unfold made
          match values, hv with
          | [], _ => rfl
          | [_], _ => rfl
          | [_, _], _ => rfl
          | [_, _, _], _ => rfl
          | [_, _, _, _], _ => rfl
          | [_, _, _, _, _], _ => rfl
          | [_, _, _, _, _, _], _ => rfl
          | [_, _, _, _, _, _, _], _ => rfl
          | _ :: _ :: _ :: _ :: _ :: _ :: _ :: _ :: _, hv => simp at hv; omega
        · match values, hv with
          | l :: q1 :: q2 :: g :: b1 :: b2 :: volt :: phase :: more, _ =>
            rw [dtl_long W hc l q1 q2 g b1 b2 volt phase more _ s' hg' (by
              intro suf hsuf
              rw [hheap]
              exact hf suf (List.mem_cons_of_mem _ hsuf))]
            simp only
            rw [hcount, hheap, hg']
          | [], hv => exact absurd hv (by simp)
          | [_], hv => exact absurd hv (by simp)
          | [_, _], hv => exact absurd hv (by simp)
          | [_, _, _], hv => exact absurd hv (by simp)
          | [_, _, _, _], hv => exact absurd hv (by simp)
          | [_, _, _, _, _], hv => exact absurd hv (by simp)
          | [_, _, _, _, _, _], hv => exact absurd hv (by simp)
          | [_, _, _, _, _, _, _], hv => exact absurd hv (by simp)
      · rw [handler_generic W _ hg' ht (by rw [dget_convAll, dget_frequency hc]; rfl)]
        simp only
        rw [hgen]
        simp only
        rw [hcount]
        congr 3
        unfold made
        rw [decide_eq_false ht]

/-! ## All lines -/

/-- The elements of the heap in the order of their creation. -/
def elems (h : Heap R) : List (Elem R) := (List.range h.nElem).map h.elem

theorem elems_push (h : Heap R) (x : Elem R) : elems (push h x) = elems h ++ [x] := by
  unfold elems push
  simp only
  rw [List.range_succ, List.map_append, List.map_cons, List.map_nil, if_pos rfl]
  congr 1
  refine List.map_congr_left ?_
  intro k hk
  rw [List.mem_range] at hk
  rw [if_neg (by omega)]

/-- The endings of names. -/
def sufs : List Str := [[], "_q1".toList, "cav".toList, "_q2".toList]

/-- What is made from a line. -/
def lineMade (W : WNums R) (line : Str) : List (Str × Str × List (Str × R)) :=
  match splitWs line with
  | [] => []
  | w :: _ => match winClass (lower w) with
    | none => []
    | some (cls, names) => made W (lower w) cls names ((findAll matchNumber line).map W.float)

/-- Invariant of the heap: the sequence is the list of all elements, each registered under its own
name, and the names have numbers below `n`, or `n` with one of the endings `used`. -/
structure HInv (h : Heap R) (n : Nat) (used : List Str) : Prop where
  seq : (h.line 0).seq = (List.range h.nElem).map Item.elem
  reg : ∀ m e, dget (h.line 0).elements m = some e → e < h.nElem ∧ (h.elem e).name = m
  back : ∀ e < h.nElem, dget (h.line 0).elements (h.elem e).name = some e
  form : ∀ e < h.nElem, ∃ k, ∃ suf ∈ sufs, (h.elem e).name = ('e' :: natStr k) ++ suf ∧ (k < n ∨ k = n ∧ suf ∈ used)
  top : (h.line 0).top = 0

theorem name_inj {j k : Nat} {a b : Str} (ha : a ∈ sufs) (hb : b ∈ sufs)
    (h : ('e' :: natStr j) ++ a = ('e' :: natStr k) ++ b) : j = k ∧ a = b := by
  rw [List.cons_append, List.cons_append] at h
  injection h with _ h
  have hhead : ∀ s ∈ sufs, ∀ c : Char, s.head? = some c → c.isDigit = false := by decide
  have h1 := takeWhile_digits (natStr_digits j) (hhead a ha)
  have h2 := takeWhile_digits (natStr_digits k) (hhead b hb)
  rw [h, h2] at h1
  have hjk : j = k := by
    have := congrArg (digitsVal 0) h1
    rw [digitsVal_natStr, digitsVal_natStr] at this
    injection this with this
    exact this.symm
  subst hjk
  exact ⟨rfl, List.append_cancel_left h⟩

theorem HInv.fresh {h : Heap R} {n : Nat} {used : List Str} (w : HInv h n used) {suf : Str} (hs : suf ∈ sufs) (hu : suf ∉ used) :
    dget (h.line 0).elements (('e' :: natStr n) ++ suf) = none := by
  cases hd : dget (h.line 0).elements (('e' :: natStr n) ++ suf) with
  | none => rfl
  | some e =>
    exfalso
    obtain ⟨h1, h2⟩ := w.reg _ _ hd
    obtain ⟨k, s, hs', h3, h4⟩ := w.form e h1
    obtain ⟨rfl, rfl⟩ := name_inj hs' hs (h3.symm.trans h2)
    rcases h4 with h4 | h4
    · omega
    · exact hu h4.2

theorem HInv.push {h : Heap R} {n : Nat} {used : List Str} (w : HInv h n used) {suf : Str} (hs : suf ∈ sufs) (hu : suf ∉ used)
    (type : Str) (ps : List (Str × R)) (top : Nat) :
    HInv (push h (mkElem (('e' :: natStr n) ++ suf) type ps top)) n (suf :: used) := by
  have hfresh := w.fresh hs hu
  have hname : ∀ e < h.nElem, (h.elem e).name ≠ ('e' :: natStr n) ++ suf := by
    intro e he hn
    have := w.back e he
    rw [hn, hfresh] at this
    exact absurd this (by simp)
  refine ⟨?_, ?_, ?_, ?_, w.top⟩
  · show (h.line 0).seq ++ [_] = _
    rw [w.seq]
    show _ = (List.range (h.nElem + 1)).map Item.elem
    rw [List.range_succ, List.map_append]
    rfl
  · intro m e hd
    change dget (dset (h.line 0).elements (('e' :: natStr n) ++ suf) h.nElem) m = some e at hd
    change e < h.nElem + 1 ∧ (if e = h.nElem then mkElem (('e' :: natStr n) ++ suf) type ps top else h.elem e).name = m
    rw [dget_dset] at hd
    split_ifs at hd with hm
    · injection hd with hd
      subst hd
      rw [if_pos rfl]
      exact ⟨by omega, hm.symm⟩
    · obtain ⟨h1, h2⟩ := w.reg m e hd
      rw [if_neg (by omega)]
      exact ⟨by omega, h2⟩
  · intro e he
    change e < h.nElem + 1 at he
    change dget (dset (h.line 0).elements (('e' :: natStr n) ++ suf) h.nElem)
      (if e = h.nElem then mkElem (('e' :: natStr n) ++ suf) type ps top else h.elem e).name = some e
    rw [dget_dset]
    by_cases h1 : e = h.nElem
    · rw [if_pos h1, if_pos (show (mkElem (('e' :: natStr n) ++ suf) type ps top).name = 'e' :: natStr n ++ suf from rfl), h1]
    · rw [if_neg h1, if_neg (hname e (by omega))]
      exact w.back e (by omega)
  · intro e he
    change e < h.nElem + 1 at he
    change ∃ k, ∃ suf' ∈ sufs, (if e = h.nElem then mkElem (('e' :: natStr n) ++ suf) type ps top else h.elem e).name = _ ∧ _
    by_cases h1 : e = h.nElem
    · rw [if_pos h1]
      exact ⟨n, suf, hs, rfl, .inr ⟨rfl, by simp⟩⟩
    · rw [if_neg h1]
      obtain ⟨k, s, h2, h3, h4⟩ := w.form e (by omega)
      refine ⟨k, s, h2, h3, ?_⟩
      rcases h4 with h4 | h4
      · exact .inl h4
      · exact .inr ⟨h4.1, List.mem_cons_of_mem _ h4.2⟩

theorem HInv.next {h : Heap R} {n m : Nat} {used : List Str} (w : HInv h n used) (hm : n < m) : HInv h m [] := by
  refine ⟨w.seq, w.reg, w.back, ?_, w.top⟩
  intro e he
  obtain ⟨k, s, h1, h2, h3⟩ := w.form e he
  refine ⟨k, s, h1, h2, .inl ?_⟩
  rcases h3 with h3 | h3
  · omega
  · have := h3.1; omega

theorem HInv.pushAll {n : Nat} (ms : List (Str × Str × List (Str × R))) {h : Heap R} {used : List Str} (w : HInv h n used)
    (hs : ∀ m ∈ ms, m.1 ∈ sufs) (hu : ∀ m ∈ ms, m.1 ∉ used) (hn : (ms.map Prod.fst).Nodup) :
    (∃ used', HInv (pushAll ('e' :: natStr n) ms h) n used') ∧ elems (pushAll ('e' :: natStr n) ms h) =
      elems h ++ ms.map fun m => mkElem (('e' :: natStr n) ++ m.1) m.2.1 m.2.2 0 := by
  induction ms generalizing h used with
  | nil => exact ⟨⟨used, w⟩, by simp [Trace.pushAll]⟩
  | cons m ms ih =>
    rw [List.map_cons, List.nodup_cons] at hn
    have w' := w.push (hs m (by simp)) (hu m (by simp)) m.2.1 m.2.2 (h.line 0).top
    obtain ⟨h1, h2⟩ := ih w' (fun x hx => hs x (List.mem_cons_of_mem _ hx)) (by
      intro x hx hxm
      rcases List.mem_cons.1 hxm with hxm | hxm
      · exact hn.1 (by rw [← hxm]; exact List.mem_map_of_mem hx)
      · exact hu x (List.mem_cons_of_mem _ hx) hxm) hn.2
    refine ⟨h1, ?_⟩
    show elems (Trace.pushAll _ ms _) = _
    rw [h2, elems_push, w.top]
    simp

theorem made_sufs (W : WNums R) (t cls : Str) (names : List Str) (values : List R) :
    (∀ m ∈ made W t cls names values, m.1 ∈ sufs) ∧ ((made W t cls names values).map Prod.fst).Nodup := by
  unfold made
  split
  · exact ⟨by simp [sufs], show ["_q1".toList, "cav".toList, "_q2".toList].Nodup by decide⟩
  · exact ⟨by simp [sufs], by simp⟩

/-- One line: the elements made from it are added. -/
theorem winLine_inv (W : WNums R) (line : Str) (s s' : WState R) (hg : s.globals = []) (w : HInv s.heap s.count [])
    (hr : winLine W line s = .ok s') :
    s'.globals = [] ∧ HInv s'.heap s'.count [] ∧ s.count < s'.count ∧ splitWs line ≠ [] ∧
      (∀ v ∈ (splitWs line).head?, (winClass (lower v)).isSome) ∧
      elems s'.heap = elems s.heap ++ (lineMade W line).map fun m => mkElem (('e' :: natStr s.count) ++ m.1) m.2.1 m.2.2 0 := by
  rw [winLine_exact W line s hg (fun suf hs => w.fresh hs (by simp))] at hr
  unfold lineMade
  cases hsp : splitWs line with
  | nil => rw [hsp] at hr; exact absurd hr (by simp)
  | cons v vs =>
    rw [hsp] at hr
    simp only at hr ⊢
    cases hc : winClass (lower v) with
    | none => rw [hc] at hr; exact absurd hr (by simp)
    | some c =>
      obtain ⟨cls, names⟩ := c
      rw [hc] at hr
      simp only at hr ⊢
      injection hr with hr
      obtain ⟨m1, m2⟩ := made_sufs W (lower v) cls names ((findAll matchNumber line).map W.float)
      obtain ⟨⟨used, h1⟩, h2⟩ := w.pushAll _ m1 (by simp) m2
      rw [← hr]
      refine ⟨rfl, h1.next (by show _ < s.count + 1 + _; omega), by show _ < s.count + 1 + _; omega, by simp, ?_, h2⟩
      intro u hu
      injection hu with hu
      rw [← hu, hc]
      rfl

/-- All lines: the numbers used for the names increase, and the elements are those made from the
lines in their order. -/
theorem winLines_inv (W : WNums R) (lines : List Str) (s s' : WState R) (hg : s.globals = []) (w : HInv s.heap s.count [])
    (hr : winLines W lines s = .ok s') :
    s'.globals = [] ∧ HInv s'.heap s'.count [] ∧ ∃ ks : List Nat, ks.length = lines.length ∧ ks.Pairwise (· < ·) ∧
      (∀ k ∈ ks, s.count ≤ k) ∧
      elems s'.heap = elems s.heap ++ (lines.zip ks).flatMap fun p =>
        (lineMade W p.1).map fun m => mkElem (('e' :: natStr p.2) ++ m.1) m.2.1 m.2.2 0 := by
  induction lines generalizing s with
  | nil =>
    injection hr with hr
    rw [← hr]
    exact ⟨hg, w, [], rfl, .nil, by simp, by simp⟩
  | cons line lines ih =>
    rw [winLines] at hr
    split at hr
    · rename_i s1 h1
      obtain ⟨a1, a2, a3, _, _, a4⟩ := winLine_inv W line s s1 hg w h1
      obtain ⟨b1, b2, ks, b3, b4, b5, b6⟩ := ih s1 a1 a2 hr
      refine ⟨b1, b2, s.count :: ks, by simp [b3], ?_, ?_, ?_⟩
      · rw [List.pairwise_cons]
        exact ⟨fun k hk => by have := b5 k hk; omega, b4⟩
      · intro k hk
        rcases List.mem_cons.1 hk with rfl | hk
        · exact Nat.le_refl _
        · have := b5 k hk; omega
      · rw [b6, a4, List.zip_cons_cons, List.flatMap_cons, List.append_assoc]
    · exact absurd hr (by simp)

theorem hinv_init (name : Str) : HInv (Heap.init (some name) : Heap R) 0 [] := by
  refine ⟨rfl, ?_, ?_, ?_, rfl⟩
  · intro m e h
    exact absurd h (by simp [Heap.init, newLine, dget])
  · intro e he
    exact absurd he (Nat.not_lt_zero e)
  · intro e he
    exact absurd he (Nat.not_lt_zero e)

/-- The elements of a TraceWin file. -/
theorem winFile_elems (W : WNums R) (name : Str) (file : List Str) (s : WState R) (hr : winFile W name file = .ok s) :
    s.globals = [] ∧ HInv s.heap s.count [] ∧ ∃ lines, sanitize file = .ok lines ∧
      ∃ ks : List Nat, ks.length = lines.length ∧ ks.Pairwise (· < ·) ∧
        elems s.heap = (lines.zip ks).flatMap fun p =>
          (lineMade W p.1).map fun m => mkElem (('e' :: natStr p.2) ++ m.1) m.2.1 m.2.2 0 := by
  unfold winFile at hr
  split at hr
  · exact absurd hr (by simp)
  · rename_i lines hl
    obtain ⟨h1, h2, ks, h3, h4, _, h5⟩ := winLines_inv W lines _ s rfl (hinv_init name) hr
    refine ⟨h1, h2, lines, hl, ks, h3, h4, ?_⟩
    rw [h5]
    rfl

/-! ## C69: the frequency -/

/-- C69 fails for every file: no frequency is ever stored, and each cavity of the beamline has no
frequency or the frequency 1.0. -/
theorem frequency_fails (W : WNums R) (name : Str) (file : List Str) (s : WState R) (hr : winFile W name file = .ok s) :
    s.globals = [] ∧ ∀ e, Item.elem e ∈ (s.heap.line 0).seq → (s.heap.elem e).type = "rfca".toList →
      Params.getItem (s.heap.elem e).params "frequency".toList = none ∨
      Params.getItem (s.heap.elem e).params "frequency".toList = some (.num W.one) := by
  obtain ⟨h1, h2, lines, _, ks, _, _, h3⟩ := winFile_elems W name file s hr
  refine ⟨h1, ?_⟩
  intro e he ht
  rw [h2.seq] at he
  obtain ⟨e', he', heq⟩ := List.mem_map.1 he
  injection heq with heq
  subst heq
  have hmem : s.heap.elem e' ∈ elems s.heap := List.mem_map_of_mem he'
  rw [h3, List.mem_flatMap] at hmem
  obtain ⟨p, _, hm⟩ := hmem
  obtain ⟨m, hm, hx⟩ := List.mem_map.1 hm
  rw [← hx] at ht ⊢
  unfold lineMade at hm
  split at hm
  · exact absurd hm (by simp)
  split at hm
  · exact absurd hm (by simp)
  rename_i cls names hc
  unfold made at hm
  split at hm
  · simp only [List.mem_cons, List.not_mem_nil, or_false] at hm
    rcases hm with rfl | rfl | rfl
    · exact absurd ht (by show strip (lower "quadrupole".toList) ≠ _; decide)
    · right
      unfold mkElem
      simp only
      rw [getItem_initParams]
      rfl
    · exact absurd ht (by show strip (lower "quadrupole".toList) ≠ _; decide)
  · simp only [List.mem_cons, List.not_mem_nil, or_false] at hm
    subst hm
    left
    obtain ⟨_, _, hf, hcls⟩ := winTable_facts _ (winClass_mem hc)
    have ht' : cls = "rfca".toList := by
      change strip (lower cls) = cls at hcls
      change strip (lower cls) = _ at ht
      rwa [hcls] at ht
    unfold mkElem
    simp only
    rw [getItem_initParams]
    unfold assigned
    rw [List.filter_eq_nil_iff.2]
    · rfl
    · intro kv hkv
      obtain ⟨q, hq, rfl⟩ := List.mem_map.1 hkv
      unfold convAll at hq
      obtain ⟨r, hr', rfl⟩ := List.mem_map.1 hq
      have hn := hf ht' r.1 (List.of_mem_zip hr').1
      simp only [decide_eq_true_eq]
      rw [show lower "frequency".toList = "frequency".toList by decide]
      exact hn

/-! ## C70: names -/

/-- C70: no two elements of the beamline have the same name, and the elements are in the order of
the lines. -/
theorem win_names (W : WNums R) (name : Str) (file : List Str) (s : WState R) (hr : winFile W name file = .ok s) :
    ∃ (es : List Nat) (lines : List Str), (s.heap.line 0).seq = es.map Item.elem ∧ (es.map fun e => (s.heap.elem e).name).Nodup ∧
      sanitize file = .ok lines ∧
      ∃ ks : List Nat, ks.length = lines.length ∧ ks.Pairwise (· < ·) ∧
        es.map (fun e => (s.heap.elem e).name) =
          (lines.zip ks).flatMap fun p => (lineMade W p.1).map fun m => ('e' :: natStr p.2) ++ m.1 := by
  obtain ⟨h1, h2, lines, hl, ks, h4, h5, h3⟩ := winFile_elems W name file s hr
  refine ⟨List.range s.heap.nElem, lines, h2.seq, ?_, hl, ks, h4, h5, ?_⟩
  · refine List.Nodup.map_on ?_ List.nodup_range
    intro a ha b hb hab
    rw [List.mem_range] at ha hb
    have e1 := h2.back a ha
    have e2 := h2.back b hb
    rw [hab, e2] at e1
    injection e1 with e1
    exact e1.symm
  · have := congrArg (List.map Elem.name) h3
    unfold elems at this
    rw [List.map_map, List.map_flatMap] at this
    refine Eq.trans this ?_
    congr 1
    funext p
    rw [List.map_map]
    rfl

/-! ## C71: lengths -/

/-- The length a line stands for: the first number of drifts, quadrupoles and cells, the second of
field maps, in millimetres. -/
def lineLength [Zero R] (W : WNums R) (line : Str) : R :=
  let values := (findAll matchNumber line).map W.float
  match (splitWs line).head? with
  | none => 0
  | some w =>
    if lower w = "drift".toList ∨ lower w = "quad".toList ∨ lower w = "dtl_cel".toList then
      match values with
      | v :: _ => W.mul v W.milli
      | [] => 0
    else if lower w = "field_map".toList then
      match values with
      | _ :: v :: _ => W.mul v W.milli
      | _ => 0
    else 0

/-- Total length of a list of elements. -/
def LenList [AddMonoid R] (xs : List (Elem R)) (v : R) : Prop := ∃ vs, List.Forall₂ HasLength xs vs ∧ vs.sum = v

theorem LenList.append [AddMonoid R] {xs ys : List (Elem R)} {v w : R} (h1 : LenList xs v) (h2 : LenList ys w) :
    LenList (xs ++ ys) (v + w) := by
  obtain ⟨vs, a1, rfl⟩ := h1
  obtain ⟨ws, b1, rfl⟩ := h2
  exact ⟨vs ++ ws, List.rel_append a1 b1, List.sum_append⟩

theorem LenList.total [AddMonoid R] {h : Heap R} {es : List Nat} {v : R} (hl : LenList (es.map h.elem) v) : TotalLength h es v := by
  obtain ⟨vs, a1, rfl⟩ := hl
  induction es generalizing vs with
  | nil => cases a1; exact .nil
  | cons e es ih =>
    cases a1 with
    | cons h1 h2 =>
      rw [List.sum_cons]
      exact .cons h1 (ih _ h2)

/-- In the tables, the length is the first parameter of drifts, quadrupoles and cells, the second
of field maps; nothing else is called `l`. -/
theorem winTable_length : ∀ x ∈ winTable,
    if x.1 = "drift".toList ∨ x.1 = "quad".toList ∨ x.1 = "dtl_cel".toList then
      x.2.2.head? = some "L".toList ∧ ∀ n ∈ x.2.2.tail, lower n ≠ "l".toList
    else if x.1 = "field_map".toList then
      x.2.2.head? = some "TYPE".toList ∧ x.2.2.tail.head? = some "L".toList ∧ ∀ n ∈ x.2.2.tail.tail, lower n ≠ "l".toList
    else ∀ n ∈ x.2.2, lower n ≠ "l".toList := by
  decide +kernel

theorem assigned_conv_none (W : WNums R) {names : List Str} (values : List R) (h : ∀ n ∈ names, lower n ≠ "l".toList) :
    assigned ((convAll W (names.zip values)).map fun kv => (kv.1, PVal.num kv.2)) "L".toList = none := by
  unfold assigned
  rw [List.filter_eq_nil_iff.2]
  · rfl
  · intro kv hkv
    obtain ⟨q, hq, rfl⟩ := List.mem_map.1 hkv
    unfold convAll at hq
    obtain ⟨r, hr', rfl⟩ := List.mem_map.1 hq
    simp only [decide_eq_true_eq]
    rw [show lower "L".toList = "l".toList by decide]
    exact h r.1 (List.of_mem_zip hr').1

theorem assigned_cons {p : Str × PVal R} {ps : List (Str × PVal R)} {k : Str} (h : assigned ps k = none) :
    assigned (p :: ps) k = if lower p.1 = lower k then some p.2 else none := by
  unfold assigned at h ⊢
  rw [Option.map_eq_none_iff, List.getLast?_eq_none_iff] at h
  by_cases hp : lower p.1 = lower k
  · rw [if_pos hp, List.filter_cons_of_pos (by simpa using hp), h]
    rfl
  · rw [if_neg hp, List.filter_cons_of_neg (by simpa using hp), h]
    rfl

theorem generic_length [AddMonoid R] (W : WNums R) {t cls : Str} {names : List Str} (hc : winClass t = some (cls, names))
    (values : List R) (name : Str) : HasLength (mkElem name cls (convAll W (names.zip values)) 0)
      (if t = "drift".toList ∨ t = "quad".toList ∨ t = "dtl_cel".toList then
        match values with
        | v :: _ => W.mul v W.milli
        | [] => 0
      else if t = "field_map".toList then
        match values with
        | _ :: v :: _ => W.mul v W.milli
        | _ => 0
      else 0) := by
  have htab := winTable_length _ (winClass_mem hc)
  simp only at htab
  rw [hasLength_iff]
  have hget : Params.getItem (mkElem name cls (convAll W (names.zip values)) 0).params "L".toList =
      assigned ((convAll W (names.zip values)).map fun kv => (kv.1, PVal.num kv.2)) "L".toList := getItem_initParams _ _
  rw [hget]
  have hL : conv1 W "L".toList = fun v => W.mul v W.milli := by
    funext v
    unfold conv1
    rw [if_pos (.inl rfl)]
  by_cases h1 : t = "drift".toList ∨ t = "quad".toList ∨ t = "dtl_cel".toList
  · rw [if_pos h1] at htab ⊢
    obtain ⟨ha, hb⟩ := htab
    cases names with
    | nil => exact absurd ha (by simp)
    | cons n ns =>
      injection ha with ha
      subst ha
      cases values with
      | nil => exact .inr ⟨rfl, rfl⟩
      | cons v vs =>
        left
        have h0 := assigned_conv_none W (names := ns) vs hb
        have h3 := assigned_cons (p := ("L".toList, PVal.num (conv1 W "L".toList v))) h0
        rw [if_pos rfl, hL] at h3
        exact h3
  · rw [if_neg h1] at htab ⊢
    by_cases h2 : t = "field_map".toList
    · rw [if_pos h2] at htab ⊢
      obtain ⟨ha, hb, hd⟩ := htab
      match names, ha, hb, hd with
      | n :: m :: ns, ha, hb, hd =>
        injection ha with ha
        injection hb with hb
        subst ha hb
        match values with
        | [] => exact .inr ⟨rfl, rfl⟩
        | [v] =>
          refine .inr ⟨?_, rfl⟩
          show assigned [("TYPE".toList, PVal.num (conv1 W "TYPE".toList v))] _ = none
          rw [assigned_cons (assigned_nil _)]
          exact if_neg (show lower "TYPE".toList ≠ lower "L".toList by decide)
        | u :: v :: vs =>
          left
          have h0 := assigned_conv_none W (names := ns) vs hd
          have h3 := assigned_cons (p := ("L".toList, PVal.num (conv1 W "L".toList v))) h0
          rw [if_pos rfl, hL] at h3
          rw [List.zip_cons_cons]
          show assigned (("TYPE".toList, PVal.num (conv1 W "TYPE".toList u)) :: _) _ = _
          unfold assigned at h3 ⊢
          have hneg : ¬ decide (lower "TYPE".toList = lower "L".toList) = true := by decide
          rw [List.filter_cons_of_neg (by exact hneg)]
          exact h3
      | [n], _, hb, _ => exact absurd hb (by simp)
      | [], ha, _, _ => exact absurd ha (by simp)
    · rw [if_neg h2] at htab ⊢
      exact .inr ⟨assigned_conv_none W values htab, rfl⟩

theorem line_length [AddCommGroup R] (W : WNums R) (hsub : ∀ a b, W.sub a b = a - b) (line : Str) (name : Str) :
    LenList ((lineMade W line).map fun m => mkElem (name ++ m.1) m.2.1 m.2.2 0) (lineLength W line) := by
  unfold lineMade lineLength
  cases splitWs line with
  | nil => exact ⟨[], .nil, rfl⟩
  | cons w ws =>
    simp only [List.head?_cons]
    cases hc : winClass (lower w) with
    | none =>
      simp only
      have hno : ∀ t ∈ ["drift".toList, "quad".toList, "dtl_cel".toList, "field_map".toList], lower w ≠ t := by
        intro t ht he
        rw [he] at hc
        have : ∀ t ∈ ["drift".toList, "quad".toList, "dtl_cel".toList, "field_map".toList], (winClass t).isSome := by
          decide +kernel
        have := this t ht
        rw [hc] at this
        exact absurd this (by simp)
      rw [if_neg, if_neg]
      · exact ⟨[], .nil, rfl⟩
      · exact hno _ (by simp)
      · rintro (h | h | h)
        · exact hno _ (by simp) h
        · exact hno _ (by simp) h
        · exact hno _ (by simp) h
    | some c =>
      obtain ⟨cls, names⟩ := c
      simp only
      generalize (findAll matchNumber line).map W.float = values
      have hgen := generic_length W hc values (name ++ [])
      unfold made
      split
      · rename_i ht
        rw [if_pos (.inr (.inr (of_decide_eq_true ht)))]
        rename_i l q1 q2 _ b1 b2 volt phase _
        refine ⟨[W.mul q1 W.milli, W.mul l W.milli - W.mul q1 W.milli - W.mul q2 W.milli, W.mul q2 W.milli], ?_, ?_⟩
        · refine .cons (hasLength_iff.2 (.inl ?_)) (.cons (hasLength_iff.2 (.inl ?_)) (.cons (hasLength_iff.2 (.inl ?_)) .nil))
          · exact (getItem_initParams _ _).trans rfl
          · rw [← hsub, ← hsub]
            exact (getItem_initParams _ _).trans rfl
          · exact (getItem_initParams _ _).trans rfl
        · simp only [List.sum_cons, List.sum_nil]
          abel
      · exact ⟨_, .cons hgen .nil, by rw [List.sum_cons, List.sum_nil, add_zero]⟩

/-- C71: the total length of the beamline is the sum of the lengths given by the lines; in
particular the three elements made from a cell have the length of the cell. -/
theorem win_length [AddCommGroup R] (W : WNums R) (hsub : ∀ a b, W.sub a b = a - b) (name : Str) (file : List Str)
    (s : WState R) (hr : winFile W name file = .ok s) :
    ∃ (es : List Nat) (lines : List Str), (s.heap.line 0).seq = es.map Item.elem ∧ sanitize file = .ok lines ∧
      TotalLength s.heap es ((lines.map (lineLength W)).sum) := by
  obtain ⟨h1, h2, lines, hl, ks, h4, h5, h3⟩ := winFile_elems W name file s hr
  refine ⟨List.range s.heap.nElem, lines, h2.seq, hl, LenList.total ?_⟩
  change LenList (elems s.heap) _
  rw [h3]
  clear h3 h5 hl
  induction lines generalizing ks with
  | nil => exact ⟨[], by simp, rfl⟩
  | cons line lines ih =>
    cases ks with
    | nil => exact absurd h4 (by simp)
    | cons k ks =>
      rw [List.zip_cons_cons, List.flatMap_cons, List.map_cons, List.sum_cons]
      exact (line_length W hsub line _).append (ih ks (by simpa using h4))

/-! ## Examples -/

/-- Numbers for the examples. -/
def exWin : WNums Int :=
  { float := fun s => (digitsVal 0 (s.filter Char.isDigit)).getD 0, add := (· + ·), sub := (· - ·), mul := (· * ·), div := (· / ·),
    one := 1, ninety := 90, milli := 3, mega := 1000000, c := 299792458, truthy := fun x => x ≠ 0 }

def exWinFile : List Str :=
  ["; lattice\n".toList, "FREQ 352.2\n".toList, "DRIFT 50 10 0 0 0\n".toList,
   "DTL_CEL 100 20 30 0 1 2 5 7 0 0 0 0 0 0\n".toList, "NCELLS 1 2 3\n".toList]

/-- The names, types and lengths of the elements; the drift has number 1 and the cell number 2. -/
example : (winFile exWin "b".toList exWinFile).toOption.map (fun s => (elems s.heap).map fun x =>
    (x.name, x.type, Params.getItem x.params "l".toList)) =
    some [("e0".toList, "freq".toList, none), ("e1".toList, "drift".toList, some (.num 150)),
      ("e2_q1".toList, "quadrupole".toList, some (.num 60)), ("e2cav".toList, "rfca".toList, some (.num 150)),
      ("e2_q2".toList, "quadrupole".toList, some (.num 90)), ("e3".toList, "rfca".toList, none)] := by decide +kernel

example : ∀ a b, exWin.sub a b = a - b := fun _ _ => rfl

end Verif.Trace
