import Verif.Lattice.PropsYaml

/-! # Lemmas on files with sub-beamlines -/

namespace Verif.Lattice

variable {R : Type}

/-! ## What a file says -/

mutual

/-- The dictionaries of a tree, in order. -/
def Tree.leaves : Tree R → List (Dict Str (PVal R))
  | .elem d => [d]
  | .line ts => Tree.leavesL ts

/-- The dictionaries of a list of trees. -/
def Tree.leavesL : List (Tree R) → List (Dict Str (PVal R))
  | [] => []
  | t :: ts => t.leaves ++ Tree.leavesL ts

end

mutual

/-- Number of lists in a tree, the lists within lists included. -/
def Tree.lists : Tree R → Nat
  | .elem _ => 0
  | .line ts => Tree.listsL ts + 1

/-- Number of lists in a list of trees. -/
def Tree.listsL : List (Tree R) → Nat
  | [] => 0
  | t :: ts => t.lists + Tree.listsL ts

end

/-- The dictionaries at the top of the file. -/
def Tree.tops : List (Tree R) → List (Dict Str (PVal R))
  | [] => []
  | .elem d :: ts => d :: Tree.tops ts
  | .line _ :: ts => Tree.tops ts

/-- The dictionaries within lists. -/
def Tree.inner : List (Tree R) → List (Dict Str (PVal R))
  | [] => []
  | .elem _ :: ts => Tree.inner ts
  | .line xs :: ts => Tree.leavesL xs ++ Tree.inner ts

/-- The name in a dictionary. -/
def dictName (d : Dict Str (PVal R)) : Str :=
  match dget d "name".toList with
  | some (.str n) => n
  | _ => []

/-- The definition in a dictionary: type and parameters. -/
def dictDef (d : Dict Str (PVal R)) : Def R :=
  ⟨match dget d "type".toList with
    | some (.str t) => strip (lower t)
    | _ => [], assigned (d.filter fun kv => kv.1 ≠ "type".toList ∧ kv.1 ≠ "name".toList)⟩

/-- The first definition of the name. -/
def firstDef (ds : List (Dict Str (PVal R))) (n : Str) : Option (Def R) :=
  (ds.find? fun d => dictName d = n).map dictDef

/-! ## Loading one dictionary -/

/-- Entry of a beamline: the name of an element or the number of a beamline. -/
def Heap.entry (h : Heap R) : Item → Str ⊕ Nat
  | .elem e => .inl (h.elem e).name
  | .line k => .inr k

/-- Effect of one dictionary on the heap. -/
structure DictAdded (h : Heap R) (l : Nat) (d : Dict Str (PVal R)) (h' : Heap R) (e : Nat) : Prop where
  wf : h'.WF
  own : h'.Own
  nLine : h'.nLine = h.nLine
  lines : ∀ j, (h'.line j).lines = (h.line j).lines
  seq : ∀ j, (h'.line j).seq = if j = l then (h.line l).seq ++ [.elem e] else (h.line j).seq
  ename : (h'.elem e).name = dictName d
  names : ∀ k < h.nElem, (h'.elem k).name = (h.elem k).name
  defs : ∀ k < h.nElem, defOf (h'.elem k) = defOf (h.elem k)
  other : ∀ j n, ¬ (j = l ∧ n = dictName d) → dget (h'.line j).elements n = dget (h.line j).elements n
  found : dget (h'.line l).elements (dictName d) = some e
  first : dget (h.line l).elements (dictName d) = some e ∧ e < h.nElem ∨
    dget (h.line l).elements (dictName d) = none ∧ defOf (h'.elem e) = dictDef d

theorem loadDict_added {h : Heap R} (w : h.WF) (o : h.Own) {l : Nat} (hl : l < h.nLine)
    {d : Dict Str (PVal R)} (hd : Loadable d) :
    ∃ h' e, h.loadDict l d = (h', none) ∧ DictAdded h l d h' e := by
  obtain ⟨n, t, h1, h2, h3⟩ := hd
  have hname : dictName d = n := by unfold dictName; rw [h1]
  have hdef : dictDef d = ⟨strip (lower t), assigned (loadParams d)⟩ := by
    unfold dictDef; rw [h2]; rfl
  have e1 : h.loadDict l d = h.addElement l n t (loadParams d) false := by
    unfold Heap.loadDict
    rw [h1, h2]
  have e2 := addElement_ok h l n t (loadParams d) h3
  have hu : ∃ r, h.useElement l n t (loadParams d) = .ok r := by
    cases hu : h.useElement l n t (loadParams d) with
    | ok r => exact ⟨r, rfl⟩
    | error err => unfold Heap.addElement at e2; rw [hu] at e2; simp at e2
  obtain ⟨⟨g, e⟩, hu⟩ := hu
  have u : Used h l n t (loadParams d) g e := used_of w hl hu
  have e3 := addElement_eq hu
  simp only at e3
  have w2 := w.addElement hl n t (loadParams d) false
  have o2 := own_addElement w o hl n t (loadParams d)
  rw [e3] at w2 o2
  have hnm : ∀ k, ((g.setElem e { g.elem e with top := (g.line l).top }).elem k).name = (g.elem k).name := by
    intro k
    simp only [Heap.setElem]
    split_ifs with hk
    · rw [hk]
    · rfl
  have hdf : ∀ k, defOf ((g.setElem e { g.elem e with top := (g.line l).top }).elem k) = defOf (g.elem k) := by
    intro k
    simp only [Heap.setElem]
    split_ifs with hk
    · rw [hk]; rfl
    · rfl
  refine ⟨_, e, e1.trans e3, w2, o2, u.nLine, ?_, ?_, ?_, ?_, ?_, ?_, ?_, ?_⟩
  · intro j; rw [append_lines]; exact u.lines j
  · intro j
    rw [append_seq]
    change (if j = l then (g.line l).seq ++ [Item.elem e] else (g.line j).seq) = _
    rw [u.seq, u.seq]
  · exact (hnm e).trans (u.ename.trans hname.symm)
  · intro k hk; exact (hnm k).trans (by rw [u.old k hk])
  · intro k hk; exact (hdf k).trans (by rw [u.old k hk])
  · intro j m hjm
    rw [append_elements]
    rw [hname] at hjm
    exact u.other j m hjm
  · rw [append_elements, hname]; exact u.found
  · rw [hname, hdef]
    rcases u.first with ⟨f1, f2⟩ | ⟨f1, f2, f3, f4⟩
    · exact .inl ⟨f1, f2 ▸ u.lt⟩
    · refine .inr ⟨f1, (hdf e).trans ?_⟩
      rw [f4]
      simp only [defOf]
      congr 1
      funext k
      exact getItem_initParams _ k

/-! ## Loading a file -/

/-- The heap after a part of a file: `top` are the entries of the beamline that is loaded (`none`
for a sub-beamline), `sub` those of the only sub-beamline. -/
structure Loaded (h : Heap R) (top : List (Option (Dict Str (PVal R)))) (sub : List (Dict Str (PVal R))) : Prop where
  wf : h.WF
  own : h.Own
  sub1 : (h.nLine = 1 ∧ (h.line 0).lines = [] ∧ sub = []) ∨ (h.nLine = 2 ∧ dget (h.line 0).lines none = some 1)
  seq0 : (h.line 0).seq.map h.entry = top.map fun x => match x with
    | some d => .inl (dictName d)
    | none => .inr 1
  seq1 : (h.line 1).seq.map h.entry = sub.map fun d => .inl (dictName d)
  defs0 : ∀ n, (dget (h.line 0).elements n).map (fun e => defOf (h.elem e)) = firstDef (top.filterMap id) n
  defs1 : ∀ n, (dget (h.line 1).elements n).map (fun e => defOf (h.elem e)) = firstDef sub n

theorem loaded_init (name : Option Str) : Loaded (Heap.init name : Heap R) [] [] :=
  ⟨init_wf name, run_own name [] (by simp), .inl ⟨rfl, rfl, rfl⟩, rfl, rfl, fun _ => rfl, fun _ => rfl⟩

theorem firstDef_snoc (ds : List (Dict Str (PVal R))) (d : Dict Str (PVal R)) (n : Str) :
    firstDef (ds ++ [d]) n = match firstDef ds n with
      | some x => some x
      | none => if dictName d = n then some (dictDef d) else none := by
  unfold firstDef
  rw [List.find?_append]
  cases hf : ds.find? (fun d => dictName d = n) with
  | some x => simp
  | none =>
    by_cases hd : dictName d = n <;> simp [hd]

/-- Entries that exist are not changed by another dictionary. -/
theorem DictAdded.entries {h h' : Heap R} {l e : Nat} {d : Dict Str (PVal R)} (a : DictAdded h l d h' e)
    {s : List Item} (hs : ∀ k, Item.elem k ∈ s → k < h.nElem) : s.map h'.entry = s.map h.entry := by
  apply List.map_congr_left
  intro i hi
  cases i with
  | elem k => simp only [Heap.entry]; rw [a.names k (hs k hi)]
  | line k => rfl

/-- The definitions after another dictionary. -/
theorem DictAdded.firstDefs {h h' : Heap R} {l e : Nat} {d : Dict Str (PVal R)} (a : DictAdded h l d h' e)
    {ds : List (Dict Str (PVal R))}
    (hlt : ∀ j n k, dget (h.line j).elements n = some k → (j = l ∨ j < h.nLine) → k < h.nElem)
    (hds : ∀ n, (dget (h.line l).elements n).map (fun e => defOf (h.elem e)) = firstDef ds n) (n : Str) :
    (dget (h'.line l).elements n).map (fun e => defOf (h'.elem e)) = firstDef (ds ++ [d]) n := by
  rw [firstDef_snoc, ← hds n]
  by_cases hn : n = dictName d
  · subst hn
    rw [a.found]
    rcases a.first with ⟨f1, f2⟩ | ⟨f1, f2⟩
    · rw [f1]
      simp only [Option.map_some]
      rw [a.defs e f2]
    · rw [f1]
      simp [f2]
  · rw [a.other l n (fun h => hn h.2)]
    cases hg : dget (h.line l).elements n with
    | none => simp [Ne.symm hn]
    | some k =>
      simp only [Option.map_some]
      rw [a.defs k (hlt l n k hg (.inl rfl))]

theorem DictAdded.otherDefs {h h' : Heap R} {l e : Nat} {d : Dict Str (PVal R)} (a : DictAdded h l d h' e)
    {j : Nat} (hj : j ≠ l) (n : Str) (hlt : ∀ k, dget (h.line j).elements n = some k → k < h.nElem) :
    (dget (h'.line j).elements n).map (fun e => defOf (h'.elem e)) =
      (dget (h.line j).elements n).map (fun e => defOf (h.elem e)) := by
  rw [a.other j n (fun h => hj h.1)]
  cases hg : dget (h.line j).elements n with
  | none => rfl
  | some k =>
    simp only [Option.map_some]
    rw [a.defs k (hlt k hg)]

theorem Loaded.dict_lt {h : Heap R} {top : List (Option (Dict Str (PVal R)))} {sub : List (Dict Str (PVal R))}
    (L : Loaded h top sub) {j : Nat} (hj : j = 0 ∨ j = 1) (n : Str) (k : Nat)
    (hk : dget (h.line j).elements n = some k) : k < h.nElem := by
  by_cases hl : j < h.nLine
  · exact (L.wf.dictE j hl _ (mem_of_dget hk)).1
  · rcases L.sub1 with ⟨h1, _, h3⟩ | ⟨h1, _⟩
    · have := L.wf.pos
      have hj1 : j = 1 := by omega
      subst hj1
      have := L.defs1 n
      rw [hk, h3] at this
      cases this
    · omega

theorem Loaded.seq_lt {h : Heap R} {top : List (Option (Dict Str (PVal R)))} {sub : List (Dict Str (PVal R))}
    (L : Loaded h top sub) {j : Nat} (hj : j = 0 ∨ j = 1) (k : Nat) (hk : Item.elem k ∈ (h.line j).seq) :
    k < h.nElem := by
  by_cases hl : j < h.nLine
  · exact L.wf.elems j hl k hk
  · rcases L.sub1 with ⟨h1, _, h3⟩ | ⟨h1, _⟩
    · have := L.wf.pos
      have hj1 : j = 1 := by omega
      subst hj1
      have := L.seq1
      rw [h3] at this
      simp only [List.map_nil, List.map_eq_nil_iff] at this
      rw [this] at hk
      simp at hk
    · omega

/-- A dictionary at the top. -/
theorem Loaded.top_dict {h : Heap R} {top : List (Option (Dict Str (PVal R)))} {sub : List (Dict Str (PVal R))}
    (L : Loaded h top sub) {d : Dict Str (PVal R)} (hd : Loadable d) :
    ∃ h', loadTree 0 0 (.elem d) h = (h', none) ∧ Loaded h' (top ++ [some d]) sub := by
  obtain ⟨h', e, h1, a⟩ := loadDict_added L.wf L.own L.wf.pos hd
  refine ⟨h', by rw [loadTree, h1], a.wf, a.own, ?_, ?_, ?_, ?_, ?_⟩
  · rw [a.nLine, a.lines]; exact L.sub1
  · rw [a.seq, if_pos rfl, List.map_append, a.entries (L.seq_lt (.inl rfl)), L.seq0, List.map_append]
    simp [Heap.entry, a.ename]
  · rw [a.seq, if_neg (by decide), a.entries (L.seq_lt (.inr rfl)), L.seq1]
  · intro n
    rw [List.filterMap_append]
    refine a.firstDefs (fun j n k hk hj => ?_) L.defs0 n
    rcases hj with rfl | hj
    · exact L.dict_lt (.inl rfl) n k hk
    · exact (L.wf.dictE j hj _ (mem_of_dget hk)).1
  · intro n
    rw [a.otherDefs (by decide) n (fun k hk => L.dict_lt (.inr rfl) n k hk)]
    exact L.defs1 n

/-- A dictionary within a list. -/
theorem Loaded.sub_dict {h : Heap R} {top : List (Option (Dict Str (PVal R)))} {sub : List (Dict Str (PVal R))}
    (L : Loaded h top sub) (hn : h.nLine = 2) {d : Dict Str (PVal R)} (hd : Loadable d) :
    ∃ h', loadTree 0 1 (.elem d) h = (h', none) ∧ h'.nLine = 2 ∧ Loaded h' top (sub ++ [d]) := by
  obtain ⟨h', e, h1, a⟩ := loadDict_added L.wf L.own (l := 1) (by omega) hd
  refine ⟨h', by rw [loadTree, h1], a.nLine.trans hn, a.wf, a.own, ?_, ?_, ?_, ?_, ?_⟩
  · rw [a.nLine, a.lines]
    rcases L.sub1 with ⟨h2, _⟩ | h2
    · omega
    · exact .inr h2
  · rw [a.seq, if_neg (by decide), a.entries (L.seq_lt (.inl rfl)), L.seq0]
  · rw [a.seq, if_pos rfl, List.map_append, a.entries (L.seq_lt (.inr rfl)), L.seq1, List.map_append]
    simp [Heap.entry, a.ename]
  · intro n
    rw [a.otherDefs (by decide) n (fun k hk => L.dict_lt (.inl rfl) n k hk)]
    exact L.defs0 n
  · intro n
    refine a.firstDefs (fun j n k hk hj => ?_) L.defs1 n
    rcases hj with rfl | hj
    · exact L.dict_lt (.inr rfl) n k hk
    · exact (L.wf.dictE j hj _ (mem_of_dget hk)).1

/-- The start of a list: the sub-beamline without name is used once more. -/
theorem Loaded.list {h : Heap R} {top : List (Option (Dict Str (PVal R)))} {sub : List (Dict Str (PVal R))}
    (L : Loaded h top sub) : (h.addBeamline 0 none).nLine = 2 ∧ (h.addBeamline 0 none).lastLine 0 = 1 ∧
      Loaded (h.addBeamline 0 none) (top ++ [none]) sub := by
  have w := L.wf.addBeamline L.wf.pos (none : Option Str)
  have o := own_addBeamline L.own L.wf.pos (none : Option Str)
  have hr : ∃ g : Heap R, h.useLine 0 none = (g, 1) ∧ g.nLine = 2 ∧ g.elem = h.elem ∧
      (∀ j, j = 0 ∨ j = 1 → (g.line j).seq = (h.line j).seq ∧ ∀ n, dget (g.line j).elements n = dget (h.line j).elements n) ∧
      dget (g.line 0).lines (none : Option Str) = some 1 := by
    unfold Heap.useLine
    rcases L.sub1 with ⟨h1, h2, h3⟩ | ⟨h1, h2⟩
    · have s1 : (h.line 1).seq = [] := by
        have := L.seq1
        rw [h3] at this
        simpa using this
      have d1 : ∀ n, dget (h.line 1).elements n = none := by
        intro n
        have := L.defs1 n
        rw [h3] at this
        have h0 : firstDef ([] : List (Dict Str (PVal R))) n = none := rfl
        rw [h0] at this
        simpa using this
      rw [h2, dget_nil, h1]
      refine ⟨_, rfl, rfl, rfl, ?_, ?_⟩
      · intro j hj
        rcases hj with rfl | rfl
        · simp [Heap.setLine]
        · simp only [Heap.setLine]
          refine ⟨?_, fun n => ?_⟩
          · simp [newLine, s1]
          · simp [newLine, d1, dget_nil]
      · simp [Heap.setLine, dset, h2, dget_cons]
    · rw [h2]
      exact ⟨h, rfl, h1, rfl, fun _ _ => ⟨rfl, fun _ => rfl⟩, h2⟩
  obtain ⟨g, g1, g2, g3, g4, g5⟩ := hr
  have e : h.addBeamline 0 none = (g.append 0 (.line 1)).setLine 1
      { (g.append 0 (.line 1)).line 1 with top := ((g.append 0 (.line 1)).line 0).top } := by
    unfold Heap.addBeamline
    rw [g1]
  have hseq : ∀ j, j = 0 ∨ j = 1 → ((h.addBeamline 0 none).line j).seq =
      if j = 0 then (h.line 0).seq ++ [.line 1] else (h.line j).seq := by
    intro j hj
    rw [e]
    rcases hj with rfl | rfl
    · simp only [Heap.setLine]
      rw [if_neg (by decide), append_seq, if_pos rfl, (g4 0 (.inl rfl)).1]
      rfl
    · simp only [Heap.setLine]
      rw [if_pos trivial]
      change ((g.append 0 (.line 1)).line 1).seq = _
      rw [append_seq, if_neg (by decide), (g4 1 (.inr rfl)).1]
      rfl
  have hel : ∀ j, j = 0 ∨ j = 1 → ∀ n, dget ((h.addBeamline 0 none).line j).elements n = dget (h.line j).elements n := by
    intro j hj n
    rw [← (g4 j hj).2 n, ← append_elements g 0 j (.line 1), e]
    rcases hj with rfl | rfl <;> simp [Heap.setLine]
  have helem : (h.addBeamline 0 none).elem = h.elem := by rw [e]; exact g3
  have hent : ∀ i, (h.addBeamline 0 none).entry i = h.entry i := by
    intro i
    cases i with
    | elem k => simp only [Heap.entry]; rw [helem]
    | line k => rfl
  have hn2 : (h.addBeamline 0 none).nLine = 2 := by rw [e]; exact g2
  refine ⟨hn2, ?_, w, o, .inr ⟨hn2, ?_⟩, ?_, ?_, ?_, ?_⟩
  · unfold Heap.lastLine
    rw [hseq 0 (.inl rfl), if_pos rfl]
    simp
  · rw [← g5, ← append_lines g 0 0 (.line 1), e]
    simp [Heap.setLine]
  · rw [hseq 0 (.inl rfl), if_pos rfl, List.map_append, List.map_congr_left (fun i _ => hent i), L.seq0, List.map_append]
    simp [Heap.entry]
  · rw [hseq 1 (.inr rfl), if_neg (by decide), List.map_congr_left (fun i _ => hent i), L.seq1]
  · intro n
    rw [hel 0 (.inl rfl), helem, L.defs0 n, List.filterMap_append]
    simp
  · intro n
    rw [hel 1 (.inr rfl), helem, L.defs1 n]

mutual

theorem Loaded.sub_trees : ∀ (ts : List (Tree R)) {h : Heap R} {top : List (Option (Dict Str (PVal R)))}
    {sub : List (Dict Str (PVal R))}, Loaded h top sub → h.nLine = 2 → (∀ d ∈ Tree.leavesL ts, Loadable d) →
    ∃ h', loadTrees 0 1 ts h = (h', none) ∧ h'.nLine = 2 ∧
      Loaded h' (top ++ List.replicate (Tree.listsL ts) none) (sub ++ Tree.leavesL ts)
  | [], h, top, sub, L, hn, _ => ⟨h, by rw [loadTrees], hn, by simpa [Tree.listsL, Tree.leavesL] using L⟩
  | t :: ts, h, top, sub, L, hn, hd => by
    simp only [Tree.leavesL] at hd
    obtain ⟨h1, a1, a2, a3⟩ := Loaded.sub_tree t L hn fun d h => hd d (List.mem_append_left _ h)
    obtain ⟨h2, b1, b2, b3⟩ := Loaded.sub_trees ts a3 a2 fun d h => hd d (List.mem_append_right _ h)
    refine ⟨h2, ?_, b2, ?_⟩
    · rw [loadTrees, a1]
      exact b1
    · rw [Tree.listsL, Tree.leavesL, List.replicate_add, ← List.append_assoc, ← List.append_assoc]; exact b3

theorem Loaded.sub_tree : ∀ (t : Tree R) {h : Heap R} {top : List (Option (Dict Str (PVal R)))}
    {sub : List (Dict Str (PVal R))}, Loaded h top sub → h.nLine = 2 → (∀ d ∈ t.leaves, Loadable d) →
    ∃ h', loadTree 0 1 t h = (h', none) ∧ h'.nLine = 2 ∧
      Loaded h' (top ++ List.replicate t.lists none) (sub ++ t.leaves)
  | .elem d, h, top, sub, L, hn, hd => by
    obtain ⟨h', a1, a2, a3⟩ := L.sub_dict hn (hd d (by simp [Tree.leaves]))
    exact ⟨h', a1, a2, by simpa [Tree.lists, Tree.leaves] using a3⟩
  | .line xs, h, top, sub, L, hn, hd => by
    obtain ⟨a1, a2, a3⟩ := L.list
    obtain ⟨h', b1, b2, b3⟩ := Loaded.sub_trees xs a3 a1 (by simpa [Tree.leaves] using hd)
    refine ⟨h', ?_, b2, ?_⟩
    · rw [loadTree]
      simp only [a2]
      exact b1
    · rw [List.append_assoc] at b3
      have : [none] ++ List.replicate (Tree.listsL xs) (none : Option (Dict Str (PVal R))) =
          List.replicate (Tree.lists (.line xs)) none := by
        rw [Tree.lists, List.replicate_succ]; rfl
      rw [this] at b3
      simpa [Tree.leaves] using b3

end

/-- The entries at the top of the file: an element, or one use of the sub-beamline for every
list. -/
def Tree.marks : List (Tree R) → List (Option (Dict Str (PVal R)))
  | [] => []
  | .elem d :: ts => some d :: Tree.marks ts
  | .line xs :: ts => List.replicate (Tree.lists (.line xs)) none ++ Tree.marks ts

theorem Loaded.trees (ts : List (Tree R)) : ∀ {h : Heap R} {top : List (Option (Dict Str (PVal R)))}
    {sub : List (Dict Str (PVal R))}, Loaded h top sub → (∀ d ∈ Tree.leavesL ts, Loadable d) →
    ∃ h', loadTrees 0 0 ts h = (h', none) ∧ Loaded h' (top ++ Tree.marks ts) (sub ++ Tree.inner ts) := by
  induction ts with
  | nil => intro h top sub L _; exact ⟨h, by rw [loadTrees], by simpa [Tree.marks, Tree.inner] using L⟩
  | cons t ts ih =>
    intro h top sub L hd
    simp only [Tree.leavesL] at hd
    cases t with
    | elem d =>
      obtain ⟨h1, a1, a2⟩ := L.top_dict (hd d (by simp [Tree.leaves]))
      obtain ⟨h2, b1, b2⟩ := ih a2 fun d h => hd d (List.mem_append_right _ h)
      refine ⟨h2, ?_, ?_⟩
      · rw [loadTrees, a1]; exact b1
      · simpa [Tree.marks, Tree.inner] using b2
    | line xs =>
      obtain ⟨a1, a2, a3⟩ := L.list
      obtain ⟨h1, b1, b2, b3⟩ := Loaded.sub_trees xs a3 a1 fun d h => hd d (List.mem_append_left _ (by simpa [Tree.leaves] using h))
      obtain ⟨h2, c1, c2⟩ := ih b3 fun d h => hd d (List.mem_append_right _ h)
      refine ⟨h2, ?_, ?_⟩
      · rw [loadTrees, loadTree]
        simp only [a2]
        rw [b1]
        exact c1
      · have : [none] ++ List.replicate (Tree.listsL xs) (none : Option (Dict Str (PVal R))) =
            List.replicate (Tree.lists (.line xs)) none := by
          rw [Tree.lists, List.replicate_succ]; rfl
        rw [List.append_assoc top, this] at c2
        simpa [Tree.marks, Tree.inner] using c2

end Verif.Lattice
