import Verif.Lattice.LemmasYaml

/-! # Saving a beamline and loading it again (C27) -/

namespace Verif.Lattice

variable {R : Type}

/-- Two elements (of two heaps) are the same for a user. -/
def SameElem (x y : Elem R) : Prop :=
  x.name = y.name ∧ x.type = y.type ∧ ∀ k, Params.getItem x.params k = Params.getItem y.params k

theorem forall₂_of_map {α β γ : Type} (f : α → γ) (g : β → γ) (P : α → β → Prop) :
    ∀ (as : List α) (bs : List β), as.map f = bs.map g → (∀ a ∈ as, ∀ b ∈ bs, f a = g b → P a b) →
      List.Forall₂ P as bs := by
  intro as
  induction as with
  | nil =>
    intro bs h _
    cases bs with
    | nil => exact .nil
    | cons b bs => simp at h
  | cons a as ih =>
    intro bs h hp
    cases bs with
    | nil => simp at h
    | cons b bs =>
      simp only [List.map_cons, List.cons.injEq] at h
      exact .cons (hp a (by simp) b (by simp) h.1)
        (ih bs h.2 fun x hx y hy => hp x (by simp [hx]) y (by simp [hy]))

/-- Every beamline without sub-beamlines (after any history of calls) comes back from its file
with the same elements in the same order, if no parameter is called `name`, `type`, `self`,
`element_name` or `element_type`. Missing: sub-beamlines (`yaml_sublines_fails`) and those
parameter names (`yaml_name_fails`). -/
theorem yaml_flat_partial (name name' : Option Str) (ops : List (Op R)) (hp : ∀ op ∈ ops, op.plain)
    (hk : ∀ e < (runOps name ops).nElem, ∀ kv ∈ ((runOps name ops).elem e).params, kv.1 ∉ badKeys)
    (fuel : Nat) :
    ∃ ts h' ids ids', (runOps name ops).save fuel 0 = some ts ∧
      (Heap.init name' : Heap R).load 0 ts = (h', none) ∧
      (runOps name ops).elementsOf fuel 0 = some ids ∧ h'.elementsOf fuel 0 = some ids' ∧
      List.Forall₂ (fun e e' => SameElem ((runOps name ops).elem e) (h'.elem e')) ids ids' := by
  have r := rel_run name ops hp
  have nrm := run_normal name ops
  obtain ⟨ids, hids, -, -⟩ := history_partial name ops hp fuel
  obtain ⟨ids0, hs, hn⟩ := r.seq
  have hi : ids = ids0 := by
    have h1 := flatSeq_sound _ _ _ _ hids
    rw [hs] at h1
    exact h1.unique (unfolds_elems _ _)
  subst hi
  set h := runOps name ops with hh
  set xs := ids.map h.elem with hxs
  have hlt : ∀ e ∈ ids, e < h.nElem := fun e he =>
    r.wf.elems 0 r.wf.pos e (by rw [hs]; exact List.mem_map_of_mem he)
  have hx : ∀ x ∈ xs, Norm x.params ∧ ∀ kv ∈ x.params, kv.1 ∉ badKeys := by
    intro x hx
    obtain ⟨e, he, rfl⟩ := List.mem_map.mp hx
    exact ⟨(nrm e (hlt e he)).1, hk e (hlt e he)⟩
  have hsave : h.save fuel 0 = some (xs.map fun x => Tree.elem (saveDict x)) := by
    unfold Heap.save
    rw [hs, save_elems, hxs, List.map_map]
    rfl
  have hload : (Heap.init name' : Heap R).load 0 (xs.map fun x => Tree.elem (saveDict x)) =
      (runOps name' (loadOps xs), none) := by
    unfold Heap.load
    rw [if_neg (by simp [Heap.init, newLine])]
    exact loadTrees_elems xs _ (init_wf name') hx
  obtain ⟨ids', h1, h2, h3⟩ := history_partial name' (loadOps xs) (loadOps_plain xs) fuel
  refine ⟨_, _, ids, ids', hsave, hload, hids, h1, ?_⟩
  have hfl := flat_load xs Flat.empty fun x hxm kv hkv hr =>
    (hx x hxm).2 kv hkv (List.mem_cons_of_mem _ (List.mem_cons_of_mem _ hr))
  rw [hfl.1] at h2
  refine forall₂_of_map (fun e => (h.elem e).name) (fun e => ((runOps name' (loadOps xs)).elem e).name) _ _ _ ?_ ?_
  · rw [h2, hxs, List.map_map]; rfl
  · intro e he e' he' hne
    obtain ⟨d, hd, ht, hpar⟩ := h3 e' he'
    rw [hfl.2, ← hne] at hd
    simp only [Flat.empty] at hd
    cases hf : xs.find? (fun x => x.name = (h.elem e).name) with
    | none =>
      rw [List.find?_eq_none] at hf
      have := hf (h.elem e) (by rw [hxs]; exact List.mem_map_of_mem he)
      simp at this
    | some x =>
      rw [hf] at hd
      simp only [Option.map_some, Option.some.injEq] at hd
      have hxm := List.mem_of_find?_eq_some hf
      have hxn := List.find?_some hf
      simp only [decide_eq_true_eq] at hxn
      obtain ⟨e1, he1, rfl⟩ := List.mem_map.mp hxm
      have o1 := r.own 0 r.wf.pos e1 (by rw [hs]; exact List.mem_map_of_mem he1)
      have o2 := r.own 0 r.wf.pos e (by rw [hs]; exact List.mem_map_of_mem he)
      rw [hxn, o2] at o1
      have he1e := Option.some.inj o1
      subst he1e
      subst hd
      refine ⟨hne, ?_, ?_⟩
      · rw [ht]
        exact (nrm _ (hlt _ he)).2.symm
      · intro k
        rw [hpar k]
        exact (assigned_norm (nrm _ (hlt _ he)).1 k).symm

/-- A history meeting the hypotheses, with a name used twice and an edit. -/
def exYaml : List (Op Int) :=
  [.addElement 0 "q".toList " QUAD".toList [("L".toList, .num 3), ("K1".toList, .num 2)] false,
   .addElement 0 "d".toList "drift".toList [("L".toList, .num 5)] false,
   .addElement 0 "q".toList "drift".toList [] false,
   .editIndex 0 (-1) ["k1".toList] [.num 9]]

example : (∀ op ∈ exYaml, op.plain) ∧
    (∀ e < (runOps none exYaml).nElem, ∀ kv ∈ ((runOps none exYaml).elem e).params, kv.1 ∉ badKeys) := by
  constructor
  · intro op hop
    simp only [exYaml, List.mem_cons, List.not_mem_nil, or_false] at hop
    rcases hop with h | h | h | h <;> subst h <;> simp [Op.plain]
  · decide +kernel

/-! ## Sub-beamlines -/

/-- A dictionary that can be loaded. -/
def Loadable (d : Dict Str (PVal R)) : Prop :=
  ∃ n t, dget d "name".toList = some (.str n) ∧ dget d "type".toList = some (.str t) ∧
    ∀ kv ∈ loadParams d, kv.1 ∉ reserved

/-- Loading dictionaries into beamline `k` appends one element per dictionary to it. -/
theorem loadTrees_into (self k : Nat) (ds : List (Dict Str (PVal R))) (h : Heap R) (w : h.WF)
    (hk : k < h.nLine) (hd : ∀ d ∈ ds, Loadable d) :
    ∃ (h' : Heap R) (as : List Nat), loadTrees self k (ds.map Tree.elem) h = (h', none) ∧ h'.WF ∧ h'.nLine = h.nLine ∧
      as.length = ds.length ∧ (∀ j, (h'.line j).lines = (h.line j).lines) ∧
      ∀ j, (h'.line j).seq = if j = k then (h.line k).seq ++ as.map Item.elem else (h.line j).seq := by
  induction ds generalizing h with
  | nil =>
    refine ⟨h, [], by simp [loadTrees], w, rfl, rfl, fun _ => rfl, ?_⟩
    intro j; split_ifs with hj
    · simp [hj]
    · rfl
  | cons d ds ih =>
    obtain ⟨n, t, h1, h2, h3⟩ := hd d (by simp)
    have e1 : loadTree self k (Tree.elem d) h = h.addElement k n t (loadParams d) false := by
      rw [loadTree]
      unfold Heap.loadDict
      rw [h1, h2]
    have e2 := addElement_ok h k n t (loadParams d) h3
    have hu : ∃ r, h.useElement k n t (loadParams d) = .ok r := by
      cases hu : h.useElement k n t (loadParams d) with
      | ok r => exact ⟨r, rfl⟩
      | error err => unfold Heap.addElement at e2; rw [hu] at e2; simp at e2
    obtain ⟨⟨h1', e⟩, hu⟩ := hu
    have u : Used h k n t (loadParams d) h1' e := used_of w hk hu
    have e3 := addElement_eq hu
    simp only at e3
    set h2' := (h1'.setElem e { h1'.elem e with top := (h1'.line k).top }).append k (.elem e) with hh2
    have w2 : h2'.WF := by
      have := w.addElement hk n t (loadParams d) false
      rw [e3] at this
      exact this
    obtain ⟨h', as, f1, f2, f3, f4, f5, f6⟩ := ih h2' w2 (by
      change k < h1'.nLine; rw [u.nLine]; exact hk) fun x hx => hd x (by simp [hx])
    have hseq : ∀ j, (h2'.line j).seq = if j = k then (h.line k).seq ++ [.elem e] else (h.line j).seq := by
      intro j
      rw [hh2, append_seq]
      change (if j = k then (h1'.line k).seq ++ [Item.elem e] else (h1'.line j).seq) = _
      rw [u.seq, u.seq]
    have hlin : ∀ j, (h2'.line j).lines = (h.line j).lines := by
      intro j
      rw [hh2, append_lines]
      exact u.lines j
    refine ⟨h', e :: as, ?_, f2, f3.trans u.nLine, by simp [f4], fun j => (f5 j).trans (hlin j), ?_⟩
    · rw [List.map_cons, loadTrees, e1, e3]
      exact f1
    · intro j
      rw [f6]
      split_ifs with hj
      · subst hj
        rw [hseq, if_pos rfl]
        simp
      · rw [hseq, if_neg hj]

theorem save_line (h : Heap R) (fuel a : Nat) (as : List Nat) (ha : (h.line a).seq = as.map Item.elem) :
    h.saveItem (fuel + 1) (.line a) = some (.line (as.map fun e => Tree.elem (saveDict (h.elem e)))) := by
  simp only [Heap.saveItem]
  rw [ha, save_elems]
  rfl

/-- For every beamline that consists of two sub-beamlines, the loaded beamline has twice as
many elements as the saved one. -/
theorem yaml_sublines_fails (h : Heap R) (name : Option Str) (a b : Nat) (as bs : List Nat)
    (h0 : (h.line 0).seq = [.line a, .line b]) (ha : (h.line a).seq = as.map Item.elem)
    (hb : (h.line b).seq = bs.map Item.elem)
    (hl : ∀ e, e ∈ as ∨ e ∈ bs → Loadable (saveDict (h.elem e))) (fuel : Nat) :
    ∃ ts h' es es', h.save (fuel + 1) 0 = some ts ∧ (Heap.init name : Heap R).load 0 ts = (h', none) ∧
      h.elementsOf (fuel + 1) 0 = some es ∧ h'.elementsOf (fuel + 1) 0 = some es' ∧
      es'.length = 2 * es.length := by
  have hflat : ∀ (g : Heap R) (n l : Nat) (xs : List Nat), (g.line l).seq = xs.map Item.elem →
      g.flatItem (n + 1) (.line l) = some xs := by
    intro g n l xs hx
    rw [flatItem_line, hx]
    clear hx
    induction xs with
    | nil => rfl
    | cons x xs ih => rw [List.map_cons, flatSeq_elem, ih]; rfl
  have hsave : h.save (fuel + 1) 0 = some [.line ((as.map fun e => saveDict (h.elem e)).map Tree.elem),
      .line ((bs.map fun e => saveDict (h.elem e)).map Tree.elem)] := by
    unfold Heap.save
    rw [h0, List.mapM_cons, List.mapM_cons, List.mapM_nil, save_line h fuel a as ha, save_line h fuel b bs hb,
      List.map_map, List.map_map]
    rfl
  -- first sub-beamline
  set g0 : Heap R := Heap.init name with hg0
  have w0 : g0.WF := init_wf name
  set g1 := g0.addBeamline 0 none with hg1
  have w1 : g1.WF := w0.addBeamline (l := 0) w0.pos none
  have n1 : g1.nLine = 2 := rfl
  have s10 : (g1.line 0).seq = [.line 1] := rfl
  have s11 : (g1.line 1).seq = [] := rfl
  have l10 : (g1.line 0).lines = [(none, 1)] := rfl
  have last1 : g1.lastLine 0 = 1 := rfl
  obtain ⟨g2, xs, f1, w2, n2, len2, l2, s2⟩ := loadTrees_into 0 1 (as.map fun e => saveDict (h.elem e)) g1 w1
    (by rw [n1]; decide) (by
      intro d hd
      obtain ⟨e, he, rfl⟩ := List.mem_map.mp hd
      exact hl e (.inl he))
  have s20 : (g2.line 0).seq = [.line 1] := by rw [s2]; exact s10
  have s21 : (g2.line 1).seq = xs.map Item.elem := by rw [s2, if_pos rfl, s11]; rfl
  have l20 : dget (g2.line 0).lines (none : Option Str) = some 1 := by rw [l2, l10]; rfl
  -- second sub-beamline
  set g3 := g2.addBeamline 0 none with hg3
  have w3 : g3.WF := w2.addBeamline (l := 0) w2.pos none
  have huse : g2.useLine 0 none = (g2, 1) := by
    unfold Heap.useLine
    rw [l20]
  have n3 : g3.nLine = 2 := by
    rw [hg3]
    unfold Heap.addBeamline
    rw [huse]
    exact n2.trans n1
  have s3 : ∀ j, (g3.line j).seq = if j = 0 then [.line 1, .line 1] else (g2.line j).seq := by
    intro j
    rw [hg3]
    unfold Heap.addBeamline
    rw [huse]
    simp only [Heap.setLine]
    split_ifs with h1 h2 h2
    · omega
    · rw [append_seq, if_neg (by decide), h1]
    · rw [h2, append_seq, if_pos rfl, s20]; rfl
    · rw [append_seq, if_neg h2]
  have last3 : g3.lastLine 0 = 1 := by
    unfold Heap.lastLine
    rw [s3]
    rfl
  obtain ⟨g4, ys, f3, w4, n4, len4, l4, s4⟩ := loadTrees_into 0 1 (bs.map fun e => saveDict (h.elem e)) g3 w3
    (by rw [n3]; decide) (by
      intro d hd
      obtain ⟨e, he, rfl⟩ := List.mem_map.mp hd
      exact hl e (.inr he))
  have s40 : (g4.line 0).seq = [.line 1, .line 1] := by rw [s4, if_neg (by decide), s3]; rfl
  have s41 : (g4.line 1).seq = (xs ++ ys).map Item.elem := by
    rw [s4, if_pos rfl, s3, if_neg (by decide), s21, List.map_append]
  refine ⟨_, g4, as ++ bs, (xs ++ ys) ++ (xs ++ ys), hsave, ?_, ?_, ?_, ?_⟩
  · unfold Heap.load
    rw [if_neg (by simp [hg0, Heap.init, newLine])]
    have t1 : loadTree 0 0 (Tree.line ((as.map fun e => saveDict (h.elem e)).map Tree.elem)) g0 = (g2, none) := by
      rw [loadTree]
      show loadTrees 0 (g1.lastLine 0) _ g1 = _
      rw [last1]
      exact f1
    have t2 : loadTree 0 0 (Tree.line ((bs.map fun e => saveDict (h.elem e)).map Tree.elem)) g2 = (g4, none) := by
      rw [loadTree]
      show loadTrees 0 (g3.lastLine 0) _ g3 = _
      rw [last3]
      exact f3
    rw [loadTrees, t1]
    simp only
    rw [loadTrees, t2]
    simp only [loadTrees]
  · rw [elementsOf_eq, h0, flatSeq_cons, flatSeq_cons, hflat h fuel a as ha, hflat h fuel b bs hb, flatSeq_nil]
    simp
  · rw [elementsOf_eq, s40, flatSeq_cons, flatSeq_cons, hflat g4 fuel 1 _ s41, flatSeq_nil]
    simp
  · simp only [List.length_append, len2, len4, List.length_map]
    omega

/-- Two sub-beamlines of one element each. -/
def exTwoLines : List (Op Int) :=
  [.addBeamline 0 (some "a".toList), .addElement 1 "q".toList "quad".toList [("L".toList, .num 3)] false,
   .addBeamline 0 (some "b".toList), .addElement 2 "d".toList "drift".toList [] false]

example : ((runOps none exTwoLines).line 0).seq = [.line 1, .line 2] ∧
    ((runOps none exTwoLines).line 1).seq = [0].map Item.elem ∧
    ((runOps none exTwoLines).line 2).seq = [1].map Item.elem := by decide +kernel

example : ∀ e, e ∈ [0] ∨ e ∈ [1] → Loadable (saveDict ((runOps none exTwoLines).elem e)) := by
  intro e he
  have : e = 0 ∨ e = 1 := by simpa using he
  rcases this with rfl | rfl
  · exact ⟨"q".toList, "quad".toList, by decide +kernel⟩
  · exact ⟨"d".toList, "drift".toList, by decide +kernel⟩

/-- A parameter called `name` replaces the name of the element in the file. -/
theorem yaml_name_fails : ∃ (ops : List (Op Int)) (ts : List (Tree Int)), (∀ op ∈ ops, op.plain) ∧
    (runOps none ops).save 1 0 = some ts ∧
    ((runOps none ops).elem 0).name = "q".toList ∧
    (((Heap.init none : Heap Int).load 0 ts).1.elem 0).name = "x".toList := by
  refine ⟨[.addElement 0 "q".toList "quad".toList [("NAME".toList, .str "x".toList)] false],
    [.elem [("name".toList, .str "x".toList), ("type".toList, .str "quad".toList)]], ?_, ?_, ?_, ?_⟩
  · intro op hop
    simp only [List.mem_cons, List.not_mem_nil, or_false] at hop
    subst hop
    exact ⟨rfl, rfl⟩
  · rfl
  · rfl
  · rfl

end Verif.Lattice
