import Verif.Lattice.LemmasHeap

/-! # One name, one definition -/

namespace Verif.Lattice

variable {R : Type}

/-- Every element in a sequence is the one registered under its name. -/
def Heap.Own (h : Heap R) : Prop :=
  ∀ l < h.nLine, ∀ e, Item.elem e ∈ (h.line l).seq → dget (h.line l).elements (h.elem e).name = some e

theorem Heap.Own.frame {h h' : Heap R} (o : h.Own) (h1 : h'.line = h.line) (h2 : h'.nLine = h.nLine)
    (h4 : ∀ k, (h'.elem k).name = (h.elem k).name) : h'.Own := by
  intro l hl e he
  rw [h2] at hl
  rw [h1] at he ⊢
  rw [h4]
  exact o l hl e he

/-- The heap after a successful `add_element(..., subline=False)`. -/
theorem addElement_eq {h : Heap R} {l : Nat} {name type : Str} {ps : List (Str × PVal R)}
    {r : Heap R × Nat} (hr : h.useElement l name type ps = .ok r) :
    h.addElement l name type ps false =
      ((r.1.setElem r.2 { r.1.elem r.2 with top := (r.1.line l).top }).append l (.elem r.2), none) := by
  unfold Heap.addElement
  rw [hr]
  rfl

theorem own_addElement {h : Heap R} (w : h.WF) (o : h.Own) {l : Nat} (hl : l < h.nLine) (name type : Str)
    (ps : List (Str × PVal R)) : (h.addElement l name type ps false).1.Own := by
  cases hu : h.useElement l name type ps with
  | error err => unfold Heap.addElement; rw [hu]; exact o
  | ok r =>
    obtain ⟨h1, e⟩ := r
    have u : Used h l name type ps h1 e := used_of w hl hu
    rw [addElement_eq hu]
    have hname : ∀ k, ((h1.setElem e { h1.elem e with top := (h1.line l).top }).elem k).name =
        (h1.elem k).name := by
      intro k
      simp only [Heap.setElem]
      split_ifs with hk
      · rw [hk]
      · rfl
    intro k hk x hx
    change k < h1.nLine at hk
    rw [u.nLine] at hk
    rw [append_elements]
    change dget (h1.line k).elements
      ((h1.setElem e { h1.elem e with top := (h1.line l).top }).elem x).name = some x
    rw [hname]
    have key : ∀ y, Item.elem y ∈ (h.line k).seq → dget (h1.line k).elements (h1.elem y).name = some y := by
      intro y hy
      have hy2 := w.elems k hk y hy
      rw [u.old y hy2]
      have hy3 := o k hk y hy
      by_cases hc : k = l ∧ (h.elem y).name = name
      · rw [hc.1, hc.2]
        rw [hc.1, hc.2] at hy3
        rcases u.first with ⟨_, h2⟩ | ⟨h2, _⟩
        · rw [h2]; exact hy3
        · rw [h2] at hy3; cases hy3
      · rw [u.other k _ hc]; exact hy3
    rw [append_seq] at hx
    split_ifs at hx with h2
    · rcases List.mem_append.mp hx with hx | hx
      · change Item.elem x ∈ (h1.line l).seq at hx
        rw [u.seq] at hx
        exact key x (h2 ▸ hx)
      · simp at hx
        subst hx
        rw [u.ename, h2]
        exact u.found
    · change Item.elem x ∈ (h1.line k).seq at hx
      rw [u.seq] at hx
      exact key x hx

theorem own_addBeamline {h : Heap R} (o : h.Own) {l : Nat} (hl : l < h.nLine) (name : Option Str) :
    (h.addBeamline l name).Own := by
  unfold Heap.addBeamline Heap.useLine
  cases hd : dget (h.line l).lines name with
  | some m =>
    simp only
    intro k hk e he
    change k < h.nLine at hk
    by_cases h1 : k = m <;> by_cases h2 : k = l <;> by_cases h3 : m = l <;>
      simp_all [Heap.append, Heap.setLine, Heap.Own]
  | none =>
    simp only
    have hne : h.nLine ≠ l := by omega
    have hne' : l ≠ h.nLine := by omega
    intro k hk e he
    change k < h.nLine + 1 at hk
    simp only [Heap.append, Heap.setLine, newLine, if_pos, if_neg hne, if_neg hne'] at he ⊢
    split_ifs at he ⊢ with h1 h2
    · simp at he
    · subst h2
      exact o _ hl e (by simpa using he)
    · exact o k (by omega) e he

theorem own_step {h : Heap R} (w : h.WF) (o : h.Own) (op : Op R) (hs : op.isSub = false) :
    (h.step op).Own := by
  unfold Heap.step
  split_ifs with ht
  · cases op with
    | addElement l n t ps s =>
      simp only [Op.isSub] at hs
      subst hs
      exact own_addElement w o ht n t ps
    | addBeamline l n => exact own_addBeamline o ht n
    | editName l n ps vs =>
      have f := editName_frame h l n ps vs
      exact o.frame f.1 f.2.1 (fun k => (f.2.2.2 k).1)
    | editIndex l i ps vs =>
      have f := editIndex_frame h l i ps vs
      exact o.frame f.1 f.2.1 (fun k => (f.2.2.2 k).1)
  · exact o

theorem run_snoc (name : Option Str) (ops : List (Op R)) (op : Op R) :
    runOps name (ops ++ [op]) = (runOps name ops).step op := by
  simp [runOps, List.foldl_append]

theorem run_own (name : Option Str) (ops : List (Op R)) (hs : ∀ op ∈ ops, op.isSub = false) :
    (runOps name ops).Own := by
  induction ops using List.reverseRecOn with
  | nil => intro l _ e he; simp [runOps, Heap.init, newLine] at he
  | append_singleton ops op ih =>
    rw [run_snoc]
    exact own_step (run_wf name ops) (ih fun o ho => hs o (by simp [ho])) op (hs op (by simp))

/-! ## Refinement of a beamline without sub-beamlines -/

/-- The definition an element object holds. -/
def defOf (x : Elem R) : Def R := ⟨x.type, fun k => Params.getItem x.params k⟩

/-- The heap's beamline 0 is what the user's view says. -/
structure Rel (h : Heap R) (f : Flat R) : Prop where
  wf : h.WF
  own : h.Own
  seq : ∃ ids : List Nat, (h.line 0).seq = ids.map .elem ∧ ids.map (fun e => (h.elem e).name) = f.names
  defs : ∀ n, f.defs n = (dget (h.line 0).elements n).map fun e => defOf (h.elem e)

theorem rel_init (name : Option Str) : Rel (Heap.init name : Heap R) Flat.empty :=
  ⟨init_wf name, by intro l _ e he; simp [Heap.init, newLine] at he, ⟨[], rfl, rfl⟩, fun _ => rfl⟩

theorem getItem_initParams (ps : List (Str × PVal R)) (k : Str) :
    Params.getItem (initParams ps) k = assigned ps k := by
  unfold initParams
  rw [getItem_foldl]
  cases assigned ps k <;> rfl

theorem rel_add {h : Heap R} {f : Flat R} (r : Rel h f) (name type : Str) (ps : List (Str × PVal R)) :
    Rel (h.addElement 0 name type ps false).1 (f.step (.addElement 0 name type ps false)) := by
  have hl := r.wf.pos
  cases hu : h.useElement 0 name type ps with
  | error err =>
    have h1 : h.addElement 0 name type ps false = (h, some err) := by
      unfold Heap.addElement; rw [hu]
    rw [h1]
    have hc : (f.defs name).isNone ∧ ps.any (fun kv => reserved.contains kv.1) = true := by
      rw [r.defs]
      unfold Heap.useElement at hu
      cases hd : dget (h.line 0).elements name with
      | some e => rw [hd] at hu; cases hu
      | none =>
        rw [hd] at hu
        simp only [newElem] at hu
        split_ifs at hu with hp
        · exact ⟨rfl, hp⟩
        · cases hu
    rw [Flat.step, if_pos hc]
    exact r
  | ok x =>
    obtain ⟨h1, e⟩ := x
    have u : Used h 0 name type ps h1 e := used_of r.wf hl hu
    have hc : ¬ ((f.defs name).isNone ∧ ps.any (fun kv => reserved.contains kv.1) = true) := by
      rintro ⟨hn, hp⟩
      rw [r.defs] at hn
      unfold Heap.useElement at hu
      cases hd : dget (h.line 0).elements name with
      | some e => rw [hd] at hn; simp at hn
      | none =>
        rw [hd] at hu
        simp only [newElem, if_pos hp] at hu
        cases hu
    have w2 := r.wf.addElement hl name type ps false
    have o2 := own_addElement r.wf r.own hl name type ps
    rw [addElement_eq hu] at w2 o2 ⊢
    rw [Flat.step, if_neg hc]
    have hname : ∀ k, ((h1.setElem e { h1.elem e with top := (h1.line 0).top }).elem k).name =
        (h1.elem k).name := by
      intro k
      simp only [Heap.setElem]
      split_ifs with hk
      · rw [hk]
      · rfl
    have hdef : ∀ k, defOf ((h1.setElem e { h1.elem e with top := (h1.line 0).top }).elem k) =
        defOf (h1.elem k) := by
      intro k
      simp only [Heap.setElem]
      split_ifs with hk
      · rw [hk]; rfl
      · rfl
    refine ⟨w2, o2, ?_, ?_⟩
    · obtain ⟨ids, hs, hn⟩ := r.seq
      refine ⟨ids ++ [e], ?_, ?_⟩
      · rw [append_seq, if_pos rfl]
        change (h1.line 0).seq ++ [Item.elem e] = _
        rw [u.seq, hs]
        simp
      · change (ids ++ [e]).map (fun k => ((h1.setElem e { h1.elem e with top := (h1.line 0).top }).elem k).name)
            = f.names ++ [name]
        rw [List.map_append, ← hn]
        congr 1
        · apply List.map_congr_left
          intro x hx
          rw [hname, u.old x (r.wf.elems 0 hl x (by rw [hs]; exact List.mem_map_of_mem hx))]
        · simp only [List.map_cons, List.map_nil]
          rw [hname, u.ename]
    · intro n
      rw [append_elements]
      change (f.add name type ps).defs n = (dget (h1.line 0).elements n).map
        fun k => defOf ((h1.setElem e { h1.elem e with top := (h1.line 0).top }).elem k)
      simp only [Flat.add, hdef]
      by_cases hn : n = name
      · subst hn
        rw [if_pos rfl, u.found, r.defs]
        rcases u.first with ⟨h2, h3⟩ | ⟨h2, _, _, h4⟩
        · rw [h2, h3]; rfl
        · rw [h2]
          simp only [Option.map_none, Option.map_some, h4, defOf, getItem_initParams]
      · rw [if_neg hn, u.other 0 n (by simp [hn]), r.defs]
        cases hd : dget (h.line 0).elements n with
        | none => rfl
        | some x =>
          simp only [Option.map_some]
          rw [u.old x (r.wf.dictE 0 hl _ (mem_of_dget hd)).1]

theorem assign_nil (d : Def R) : d.assign [] = d := by
  cases d; rfl

theorem assign_assign (d : Def R) (pv : List (Str × PVal R)) : (d.assign pv).assign pv = d.assign pv := by
  cases d with
  | mk t p =>
    simp only [Def.assign, Def.mk.injEq, true_and]
    funext k
    cases assigned pv k <;> rfl

theorem defOf_edit (x : Elem R) (pv : List (Str × PVal R)) :
    defOf { x with params := pv.foldl (fun d kv => Params.setItem d kv.1 kv.2) x.params } =
      (defOf x).assign pv := by
  simp only [defOf, Def.assign, Def.mk.injEq, true_and]
  funext k
  exact getItem_foldl pv x.params k

/-- Definitions after editing entries that are all the same element. -/
theorem editItems_same (pv : List (Str × PVal R)) (e : Nat) :
    ∀ (is : List Item) (h : Heap R), (∀ i ∈ is, i = .elem e) → ∀ k,
      defOf ((Heap.editItems pv is h).1.elem k) =
        if k = e ∧ is ≠ [] then (defOf (h.elem k)).assign pv else defOf (h.elem k) := by
  intro is
  induction is with
  | nil => intro h _ k; simp [Heap.editItems]
  | cons i is ih =>
    intro h hi k
    have h0 : i = .elem e := hi i (by simp)
    subst h0
    simp only [Heap.editItems, Heap.editItem]
    rw [ih _ (fun i hi' => hi i (by simp [hi'])) k]
    simp only [Heap.setElem]
    by_cases hk : k = e
    · subst hk
      simp only [if_true, true_and, defOf_edit, assign_assign]
      simp
    · simp [hk]

theorem rel_assign {h h' : Heap R} {f : Flat R} (r : Rel h f) {n : Str} {e : Nat} {pv : List (Str × PVal R)}
    (he : dget (h.line 0).elements n = some e)
    (h1 : h'.line = h.line) (h2 : h'.nLine = h.nLine) (h3 : h'.nElem = h.nElem)
    (h4 : ∀ k, (h'.elem k).name = (h.elem k).name ∧ (h'.elem k).top = (h.elem k).top)
    (h5 : ∀ k, defOf (h'.elem k) = if k = e then (defOf (h.elem k)).assign pv else defOf (h.elem k)) :
    Rel h' (f.assign n pv) := by
  refine ⟨r.wf.frame h1 h2 h3 (fun k => (h4 k).1) (fun k => (h4 k).2), r.own.frame h1 h2 (fun k => (h4 k).1), ?_, ?_⟩
  · obtain ⟨ids, hs, hn⟩ := r.seq
    refine ⟨ids, by rw [h1]; exact hs, ?_⟩
    change _ = f.names
    rw [← hn]
    apply List.map_congr_left
    intro x _
    exact (h4 x).1
  · intro m
    rw [h1]
    simp only [Flat.assign, h5]
    have hname := (r.wf.dictE 0 r.wf.pos _ (mem_of_dget he)).2
    simp only at hname
    by_cases hm : m = n
    · subst hm
      rw [if_pos rfl, r.defs, he]
      simp
    · rw [if_neg hm, r.defs]
      cases hd : dget (h.line 0).elements m with
      | none => rfl
      | some x =>
        have hx := (r.wf.dictE 0 r.wf.pos _ (mem_of_dget hd)).2
        simp only at hx
        have hne : x ≠ e := by
          intro hxe
          rw [hxe, hname] at hx
          exact hm hx.symm
        simp [hne]

theorem rel_editName {h : Heap R} {f : Flat R} (r : Rel h f) (n : Str) (ps : List Str) (vs : List (PVal R)) :
    Rel (h.editName 0 n ps vs).1 (f.step (.editName 0 n ps vs)) := by
  obtain ⟨ids, hs, hn⟩ := r.seq
  have fr := editName_frame h 0 n ps vs
  simp only [Flat.step]
  by_cases hmem : n ∈ f.names
  · rw [if_pos hmem]
    have hmem' := hmem
    rw [← hn, List.mem_map] at hmem'
    obtain ⟨e, he, hen⟩ := hmem'
    have hd := r.own 0 r.wf.pos e (by rw [hs]; exact List.mem_map_of_mem he)
    rw [hen] at hd
    refine rel_assign r hd fr.1 fr.2.1 fr.2.2.1 (fun k => ⟨(fr.2.2.2 k).1, (fr.2.2.2 k).2.1⟩) ?_
    intro k
    unfold Heap.editName
    rw [editItems_same (ps.zip vs) e]
    · have hne : (h.line 0).seq.filter (fun i => h.itemName i = some n) ≠ [] := by
        apply List.ne_nil_of_mem (a := Item.elem e)
        rw [List.mem_filter]
        exact ⟨by rw [hs]; exact List.mem_map_of_mem he, by simp [Heap.itemName, hen]⟩
      simp [hne]
    · intro i hi
      rw [List.mem_filter, hs, List.mem_map] at hi
      obtain ⟨⟨x, hx, rfl⟩, hx2⟩ := hi
      simp only [Heap.itemName, Option.some.injEq, decide_eq_true_eq] at hx2
      have hd2 := r.own 0 r.wf.pos x (by rw [hs]; exact List.mem_map_of_mem hx)
      rw [hx2, hd] at hd2
      rw [Option.some.inj hd2]
  · rw [if_neg hmem]
    have : (h.line 0).seq.filter (fun i => h.itemName i = some n) = [] := by
      rw [List.filter_eq_nil_iff, hs]
      intro i hi
      obtain ⟨x, hx, rfl⟩ := List.mem_map.mp hi
      simp only [Heap.itemName, Option.some.injEq, decide_eq_true_eq]
      intro hxn
      apply hmem
      rw [← hn, ← hxn]
      exact List.mem_map_of_mem (f := fun e => (h.elem e).name) hx
    unfold Heap.editName
    rw [this]
    exact r

theorem pyIndex_eq {α : Type} (s : List α) (i : Int) :
    pyIndex s i = (position s.length i).bind (s[·]?) := by
  unfold pyIndex position
  by_cases h0 : 0 ≤ i
  · rw [if_pos h0]
    by_cases h1 : i < s.length
    · rw [if_pos ⟨h0, h1⟩]; rfl
    · rw [if_neg (fun h => h1 h.2), if_neg (by omega)]
      simp only [Option.bind_none, List.getElem?_eq_none_iff]
      omega
  · rw [if_neg h0, if_neg (fun h : 0 ≤ i ∧ i < (s.length : Int) => h0 h.1)]
    by_cases h1 : -(s.length : Int) ≤ i
    · rw [if_pos h1, if_pos ⟨by omega, h1⟩]; rfl
    · rw [if_neg h1, if_neg (fun h : i < 0 ∧ -(s.length : Int) ≤ i => h1 h.2)]; rfl

theorem rel_editIndex {h : Heap R} {f : Flat R} (r : Rel h f) (i : Int) (ps : List Str) (vs : List (PVal R)) :
    Rel (h.editIndex 0 i ps vs).1 (f.step (.editIndex 0 i ps vs)) := by
  obtain ⟨ids, hs, hn⟩ := r.seq
  have fr := editIndex_frame h 0 i ps vs
  simp only [Flat.step]
  have hlen : f.names.length = (h.line 0).seq.length := by rw [← hn, hs]; simp
  have hpy := pyIndex_eq (h.line 0).seq i
  rw [← hlen] at hpy
  have hnm : (position f.names.length i).bind (f.names[·]?) =
      (position f.names.length i).bind fun p => (ids[p]?).map fun e => (h.elem e).name := by
    congr 1
    funext p
    rw [← hn, List.getElem?_map]
  have hit : pyIndex (h.line 0).seq i = (position f.names.length i).bind fun p => (ids[p]?).map Item.elem := by
    rw [hpy]
    congr 1
    funext p
    rw [hs, List.getElem?_map]
  rw [hnm]
  cases hp : (position f.names.length i).bind (ids[·]?) with
  | none =>
    have e1 : ((position f.names.length i).bind fun p => (ids[p]?).map fun e => (h.elem e).name) = none := by
      cases hq : position f.names.length i with
      | none => rfl
      | some p => rw [hq] at hp; simp only [Option.bind_some] at hp ⊢; rw [hp]; rfl
    have e2 : ((position f.names.length i).bind fun p => (ids[p]?).map Item.elem) = none := by
      cases hq : position f.names.length i with
      | none => rfl
      | some p => rw [hq] at hp; simp only [Option.bind_some] at hp ⊢; rw [hp]; rfl
    rw [e1]
    unfold Heap.editIndex
    rw [hit, e2]
    split
    · exact r
    · exact r
  | some e =>
    have e1 : ((position f.names.length i).bind fun p => (ids[p]?).map fun e => (h.elem e).name) =
        some (h.elem e).name := by
      cases hq : position f.names.length i with
      | none => rw [hq] at hp; cases hp
      | some p => rw [hq] at hp; simp only [Option.bind_some] at hp ⊢; rw [hp]; rfl
    have e2 : ((position f.names.length i).bind fun p => (ids[p]?).map Item.elem) = some (.elem e) := by
      cases hq : position f.names.length i with
      | none => rw [hq] at hp; cases hp
      | some p => rw [hq] at hp; simp only [Option.bind_some] at hp ⊢; rw [hp]; rfl
    have hmem : e ∈ ids := by
      cases hq : position f.names.length i with
      | none => rw [hq] at hp; cases hp
      | some p => rw [hq] at hp; exact List.mem_of_getElem? hp
    rw [e1]
    have hd := r.own 0 r.wf.pos e (by rw [hs]; exact List.mem_map_of_mem hmem)
    refine rel_assign r hd fr.1 fr.2.1 fr.2.2.1 (fun k => ⟨(fr.2.2.2 k).1, (fr.2.2.2 k).2.1⟩) ?_
    intro k
    unfold Heap.editIndex
    rw [hit, e2]
    by_cases hz : ps.zip vs = []
    · rw [if_pos hz, hz, assign_nil]
      simp
    · rw [if_neg hz]
      simp only [Heap.editItem, Heap.setElem]
      by_cases hk : k = e
      · subst hk; simp only [if_true]; exact defOf_edit _ _
      · simp [hk]

/-- A call on beamline 0 without sub-beamlines. -/
def Op.plain : Op R → Prop
  | .addElement l _ _ _ s => l = 0 ∧ s = false
  | .addBeamline _ _ => False
  | .editName l _ _ _ => l = 0
  | .editIndex l _ _ _ => l = 0

theorem rel_step {h : Heap R} {f : Flat R} (r : Rel h f) (op : Op R) (hp : op.plain) :
    Rel (h.step op) (f.step op) := by
  have hpos := r.wf.pos
  cases op with
  | addElement l n t ps s =>
    obtain ⟨rfl, rfl⟩ := hp
    have : h.step (.addElement 0 n t ps false) = (h.addElement 0 n t ps false).1 := by
      simp [Heap.step, Op.target, hpos]
    rw [this]
    exact rel_add r n t ps
  | addBeamline l n => exact hp.elim
  | editName l n ps vs =>
    simp only [Op.plain] at hp
    subst hp
    have : h.step (.editName 0 n ps vs) = (h.editName 0 n ps vs).1 := by
      simp [Heap.step, Op.target, hpos]
    rw [this]
    exact rel_editName r n ps vs
  | editIndex l i ps vs =>
    simp only [Op.plain] at hp
    subst hp
    have : h.step (.editIndex 0 i ps vs) = (h.editIndex 0 i ps vs).1 := by
      simp [Heap.step, Op.target, hpos]
    rw [this]
    exact rel_editIndex r i ps vs

theorem rel_run (name : Option Str) (ops : List (Op R)) (hp : ∀ op ∈ ops, op.plain) :
    Rel (runOps name ops) (ops.foldl Flat.step Flat.empty) := by
  induction ops using List.reverseRecOn with
  | nil => exact rel_init name
  | append_singleton ops op ih =>
    rw [run_snoc, List.foldl_append]
    exact rel_step (ih fun o ho => hp o (by simp [ho])) op (hp op (by simp))

end Verif.Lattice
