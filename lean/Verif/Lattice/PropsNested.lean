import Verif.Lattice.LemmasNested

/-! # Saving and loading a beamline with sub-beamlines (C27) -/

namespace Verif.Lattice

variable {R : Type}

/-! ## The file -/

/-- The names and definitions of the elements after the file was loaded: a name at the top has its
first definition at the top; every list, at any depth, gives all elements of all lists, with
the first definition of the name in the lists. -/
def loadedList (ts : List (Tree R)) : List (Str × Option (Def R)) :=
  (Tree.marks ts).flatMap fun x => match x with
    | some d => [(dictName d, firstDef (Tree.tops ts) (dictName d))]
    | none => (Tree.inner ts).map fun d => (dictName d, firstDef (Tree.inner ts) (dictName d))

theorem marks_tops (ts : List (Tree R)) : (Tree.marks ts).filterMap id = Tree.tops ts := by
  induction ts with
  | nil => rfl
  | cons t ts ih =>
    cases t with
    | elem d => simpa [Tree.marks, Tree.tops] using ih
    | line xs =>
      rw [Tree.marks, Tree.tops, List.filterMap_append, ih]
      have : ∀ n : Nat, (List.replicate n (none : Option (Dict Str (PVal R)))).filterMap id = [] := by
        intro n; induction n <;> simp [*]
      rw [this]
      rfl

theorem elems_of_entries (h : Heap R) (ds : List (Dict Str (PVal R))) : ∀ (s : List Item),
    s.map h.entry = ds.map (fun d => Sum.inl (dictName d)) →
    ∃ ids : List Nat, s = ids.map .elem ∧ ids.map (fun e => (h.elem e).name) = ds.map dictName := by
  induction ds with
  | nil => intro s hs; exact ⟨[], by simpa using hs, rfl⟩
  | cons d ds ih =>
    intro s hs
    cases s with
    | nil => simp at hs
    | cons i s =>
      simp only [List.map_cons, List.cons.injEq] at hs
      obtain ⟨ids, h1, h2⟩ := ih s hs.2
      cases i with
      | line k => cases hs.1
      | elem e =>
        have := Sum.inl.inj hs.1
        exact ⟨e :: ids, by simp [h1], by simp [h2, this]⟩

/-- Exact result of loading any file. -/
theorem load_exact (name : Option Str) (ts : List (Tree R)) (hd : ∀ d ∈ Tree.leavesL ts, Loadable d) (fuel : Nat) :
    ∃ h' ids, (Heap.init name : Heap R).load 0 ts = (h', none) ∧ h'.elementsOf (fuel + 1) 0 = some ids ∧
      ids.map (fun e => ((h'.elem e).name, some (defOf (h'.elem e)))) = loadedList ts := by
  obtain ⟨h, h1, L⟩ := (loaded_init (R := R) name).trees ts hd
  simp only [List.nil_append] at L
  have hload : (Heap.init name : Heap R).load 0 ts = (h, none) := by
    unfold Heap.load
    rw [if_neg (by simp [Heap.init, newLine])]
    exact h1
  obtain ⟨sub, s1, s2⟩ := elems_of_entries h _ _ L.seq1
  have hsub : ∀ n, flatSeq h n (h.line 1).seq = some sub := by
    intro n
    rw [s1]
    clear s1 s2
    induction sub with
    | nil => rfl
    | cons x xs ih => rw [List.map_cons, flatSeq_elem, ih]; rfl
  have hsubd : sub.map (fun e => ((h.elem e).name, some (defOf (h.elem e)))) =
      (Tree.inner ts).map fun d => (dictName d, firstDef (Tree.inner ts) (dictName d)) := by
    have e1 : (Tree.inner ts).map (fun d => (dictName d, firstDef (Tree.inner ts) (dictName d))) =
        ((Tree.inner ts).map dictName).map fun n => (n, firstDef (Tree.inner ts) n) := by
      rw [List.map_map]; rfl
    rw [e1, ← s2, List.map_map]
    apply List.map_congr_left
    intro e he
    simp only [Function.comp_apply]
    congr 1
    have hm : Item.elem e ∈ (h.line 1).seq := by rw [s1]; exact List.mem_map_of_mem he
    have hn : 1 < h.nLine := by
      rcases L.sub1 with ⟨_, _, h3⟩ | ⟨h3, _⟩
      · have := L.seq1
        rw [h3] at this
        simp only [List.map_nil, List.map_eq_nil_iff] at this
        rw [this] at hm
        simp at hm
      · omega
    rw [← L.defs1, L.own 1 hn e hm]
    rfl
  have htop : ∀ (m : List (Option (Dict Str (PVal R)))) (s : List Item),
      s.map h.entry = (m.map fun x => match x with
        | some d => .inl (dictName d)
        | none => .inr 1) → (∀ i ∈ s, i ∈ (h.line 0).seq) →
      ∃ ids, flatSeq h (fuel + 1) s = some ids ∧
        ids.map (fun e => ((h.elem e).name, some (defOf (h.elem e)))) = m.flatMap fun x => match x with
          | some d => [(dictName d, firstDef (Tree.tops ts) (dictName d))]
          | none => (Tree.inner ts).map fun d => (dictName d, firstDef (Tree.inner ts) (dictName d)) := by
    intro m
    induction m with
    | nil =>
      intro s hs _
      simp only [List.map_nil, List.map_eq_nil_iff] at hs
      subst hs
      exact ⟨[], rfl, rfl⟩
    | cons x m ih =>
      intro s hs hm
      cases s with
      | nil => simp at hs
      | cons i s =>
        simp only [List.map_cons, List.cons.injEq] at hs
        obtain ⟨ids, i1, i2⟩ := ih s hs.2 fun j hj => hm j (List.mem_cons_of_mem _ hj)
        cases x with
        | some d =>
          cases i with
          | line k => cases hs.1
          | elem e =>
            have hn := Sum.inl.inj hs.1
            refine ⟨e :: ids, by rw [flatSeq_elem, i1]; rfl, ?_⟩
            rw [List.map_cons, i2, List.flatMap_cons]
            simp only [List.singleton_append, List.cons.injEq, and_true]
            rw [← hn]
            congr 1
            rw [← marks_tops, ← L.defs0, L.own 0 L.wf.pos e (hm _ (by simp))]
            rfl
        | none =>
          cases i with
          | elem e => cases hs.1
          | line k =>
            obtain rfl : k = 1 := Sum.inr.inj hs.1
            refine ⟨sub ++ ids, ?_, ?_⟩
            · rw [flatSeq_cons, flatItem_line, hsub, i1]; rfl
            · rw [List.map_append, i2, hsubd, List.flatMap_cons]
  obtain ⟨ids, i1, i2⟩ := htop _ _ L.seq0 fun i hi => hi
  exact ⟨h, ids, hload, i1, i2⟩

/-- A name has one definition. -/
def Consistent (ds : List (Dict Str (PVal R))) : Prop :=
  ∀ d ∈ ds, ∀ d' ∈ ds, dictName d = dictName d' → dictDef d = dictDef d'

theorem firstDef_consistent (ds : List (Dict Str (PVal R))) :
    (∀ d ∈ ds, firstDef ds (dictName d) = some (dictDef d)) ↔ Consistent ds := by
  constructor
  · intro h d hd d' hd' hn
    have h1 := h d hd
    rw [hn, h d' hd'] at h1
    exact (Option.some.inj h1).symm
  · intro h d hd
    unfold firstDef
    cases hf : ds.find? (fun x => dictName x = dictName d) with
    | none =>
      rw [List.find?_eq_none] at hf
      exact absurd (decide_eq_true rfl) (hf d hd)
    | some x =>
      have h1 := List.mem_of_find?_eq_some hf
      have h2 := List.find?_some hf
      simp only [decide_eq_true_eq] at h2
      rw [Option.map_some, h x h1 d hd h2]

theorem no_lists (ts : List (Tree R)) (h : Tree.listsL ts = 0) :
    Tree.leavesL ts = Tree.tops ts ∧ Tree.marks ts = (Tree.tops ts).map some ∧ Tree.inner ts = [] := by
  induction ts with
  | nil => exact ⟨rfl, rfl, rfl⟩
  | cons t ts ih =>
    rw [Tree.listsL] at h
    obtain ⟨h1, h2, h3⟩ := ih (by omega)
    cases t with
    | elem d => exact ⟨by simp [Tree.leavesL, Tree.leaves, Tree.tops, h1], by simp [Tree.marks, Tree.tops, h2], h3⟩
    | line xs => rw [Tree.lists] at h; omega

theorem flatMap_replicate_nil {α β : Type} (f : α → List β) (x : α) (hx : f x = []) (n : Nat) :
    (List.replicate n x).flatMap f = [] := by
  induction n with
  | zero => rfl
  | succ n ih => rw [List.replicate_succ, List.flatMap_cons, hx, ih]; rfl

theorem leaves_of_inner (ts : List (Tree R)) (h : Tree.inner ts = []) :
    Tree.leavesL ts = (Tree.marks ts).flatMap fun x => match x with
      | some d => [d]
      | none => [] := by
  induction ts with
  | nil => rfl
  | cons t ts ih =>
    cases t with
    | elem d =>
      rw [Tree.inner] at h
      rw [Tree.leavesL, Tree.leaves, Tree.marks, List.flatMap_cons, ih h]
    | line xs =>
      rw [Tree.inner, List.append_eq_nil_iff] at h
      rw [Tree.leavesL, Tree.leaves, h.1, Tree.marks, List.flatMap_append, ih h.2,
        flatMap_replicate_nil _ _ rfl]

theorem leaves_of_one (ts : List (Tree R)) (h : Tree.listsL ts = 1) :
    Tree.leavesL ts = (Tree.marks ts).flatMap fun x => match x with
      | some d => [d]
      | none => Tree.inner ts := by
  induction ts with
  | nil => cases h
  | cons t ts ih =>
    rw [Tree.listsL] at h
    cases t with
    | elem d =>
      rw [Tree.lists, Nat.zero_add] at h
      rw [Tree.leavesL, Tree.leaves, Tree.marks, List.flatMap_cons, ih h]
      rfl
    | line xs =>
      rw [Tree.lists] at h
      obtain ⟨h1, h2, h3⟩ := no_lists ts (by omega)
      have hx : Tree.listsL xs = 0 := by omega
      rw [Tree.leavesL, Tree.leaves, Tree.marks, Tree.inner, h3, h2, h1, Tree.lists, hx, List.append_nil]
      simp only [Nat.zero_add, List.replicate_one, List.singleton_append, List.flatMap_cons, List.flatMap_map]
      rw [List.flatMap_singleton']

theorem flatMap_eq_iff {α β : Type} (f g : α → List β) (l : List α) (hl : ∀ x ∈ l, (f x).length = (g x).length) :
    l.flatMap f = l.flatMap g ↔ ∀ x ∈ l, f x = g x := by
  induction l with
  | nil => simp
  | cons a l ih =>
    rw [List.flatMap_cons, List.flatMap_cons]
    constructor
    · intro h
      have h1 := List.append_inj h (hl a (by simp))
      intro x hx
      rcases List.mem_cons.mp hx with rfl | hx
      · exact h1.1
      · exact (ih fun x hx => hl x (List.mem_cons_of_mem _ hx)).mp h1.2 x hx
    · intro h
      rw [h a (by simp), (ih fun x hx => hl x (List.mem_cons_of_mem _ hx)).mpr fun x hx => h x (List.mem_cons_of_mem _ hx)]

theorem marks_length (ts : List (Tree R)) :
    (loadedList ts).length = (Tree.tops ts).length + Tree.listsL ts * (Tree.inner ts).length ∧
    (Tree.leavesL ts).length = (Tree.tops ts).length + (Tree.inner ts).length := by
  constructor
  · have gen : ∀ (us : List (Tree R)) (k : Nat) (f : Option (Dict Str (PVal R)) → List (Str × Option (Def R))),
        (∀ d, (f (some d)).length = 1) → (f none).length = k →
        ((Tree.marks us).flatMap f).length = (Tree.tops us).length + Tree.listsL us * k := by
      intro us k f h1 h2
      induction us with
      | nil => simp [Tree.marks, Tree.tops, Tree.listsL]
      | cons t us ih =>
        cases t with
        | elem d =>
          rw [Tree.marks, List.flatMap_cons, List.length_append, ih, h1, Tree.tops, Tree.listsL, Tree.lists,
            List.length_cons, Nat.zero_add]
          omega
        | line xs =>
          have hr : ∀ n, ((List.replicate n (none : Option (Dict Str (PVal R)))).flatMap f).length = n * k := by
            intro n
            induction n with
            | zero => simp
            | succ n ihn => rw [List.replicate_succ, List.flatMap_cons, List.length_append, ihn, h2, Nat.succ_mul, Nat.add_comm]
          rw [Tree.marks, List.flatMap_append, List.length_append, ih, hr, Tree.tops, Tree.listsL, Nat.add_mul]
          omega
    exact gen ts _ _ (fun _ => rfl) (by simp)
  · induction ts with
    | nil => rfl
    | cons t ts ih =>
      cases t with
      | elem d => simp [Tree.leavesL, Tree.leaves, Tree.tops, Tree.inner, ih]; omega
      | line xs => simp [Tree.leavesL, Tree.leaves, Tree.tops, Tree.inner, ih]; omega

theorem mem_tops_marks (ts : List (Tree R)) (d : Dict Str (PVal R)) :
    some d ∈ Tree.marks ts ↔ d ∈ Tree.tops ts := by
  rw [← marks_tops]
  simp

theorem none_marks (ts : List (Tree R)) (h : Tree.inner ts ≠ []) : none ∈ Tree.marks ts := by
  induction ts with
  | nil => exact absurd rfl h
  | cons t ts ih =>
    cases t with
    | elem d => exact List.mem_cons_of_mem _ (ih h)
    | line xs =>
      rw [Tree.marks, Tree.lists, List.replicate_succ]
      simp

/-- What is loaded is what the file says exactly if the file has one list, or none with elements,
and names at the top and names in the list have one definition each. -/
theorem loadedList_iff (ts : List (Tree R)) :
    loadedList ts = (Tree.leavesL ts).map (fun d => (dictName d, some (dictDef d))) ↔
      (Tree.inner ts = [] ∨ Tree.listsL ts = 1) ∧ Consistent (Tree.tops ts) ∧ Consistent (Tree.inner ts) := by
  obtain ⟨l1, l2⟩ := marks_length ts
  by_cases hc : Tree.inner ts = [] ∨ Tree.listsL ts = 1
  · have hl : Tree.leavesL ts = (Tree.marks ts).flatMap fun x => match x with
        | some d => [d]
        | none => Tree.inner ts := by
      rcases hc with h | h
      · rw [h]; exact leaves_of_inner ts h
      · exact leaves_of_one ts h
    rw [hl, List.map_flatMap, loadedList, flatMap_eq_iff _ _ _ (by intro x _; cases x <;> simp),
      ← firstDef_consistent, ← firstDef_consistent]
    constructor
    · intro h
      refine ⟨hc, ?_, ?_⟩
      · intro d hd
        have := h (some d) ((mem_tops_marks ts d).mpr hd)
        simpa using this
      · intro d hd
        have := h none (none_marks ts (by intro h0; rw [h0] at hd; simp at hd))
        simp only [List.map_inj_left, Prod.mk.injEq, true_and] at this
        exact this d hd
    · rintro ⟨_, h1, h2⟩ x hx
      cases x with
      | some d => simp [h1 d ((mem_tops_marks ts d).mp hx)]
      | none =>
        simp only [List.map_inj_left, Prod.mk.injEq, true_and]
        exact h2
  · refine ⟨fun h => ?_, fun h => absurd h.1 hc⟩
    exfalso
    have h1 := congrArg List.length h
    rw [List.length_map, l1, l2] at h1
    push Not at hc
    have hp : 0 < (Tree.inner ts).length := List.length_pos_iff.mpr hc.1
    have : Tree.listsL ts * (Tree.inner ts).length = 1 * (Tree.inner ts).length := by omega
    exact hc.2 (Nat.eq_of_mul_eq_mul_right hp this)

/-! ## The beamline -/

/-- Number of uses of sub-beamlines, at all levels. -/
inductive Uses (h : Heap R) : List Item → Nat → Prop
  | nil : Uses h [] 0
  | elem {e s n} : Uses h s n → Uses h (.elem e :: s) n
  | line {l s m n} : Uses h (h.line l).seq m → Uses h s n → Uses h (.line l :: s) (m + 1 + n)

/-- The entry is a sub-beamline. -/
def Item.isLine : Item → Bool
  | .elem _ => false
  | .line _ => true

theorem mapM_some_cons {α β : Type} (f : α → Option β) (a : α) (l : List α) (bs : List β)
    (h : (a :: l).mapM f = some bs) : ∃ b bs', f a = some b ∧ l.mapM f = some bs' ∧ bs = b :: bs' := by
  rw [List.mapM_cons] at h
  cases ha : f a with
  | none => rw [ha] at h; cases h
  | some b =>
    rw [ha] at h
    cases hl : l.mapM f with
    | none => rw [hl] at h; cases h
    | some bs' =>
      rw [hl] at h
      exact ⟨b, bs', rfl, rfl, (Option.some.inj h).symm⟩

/-- What is saved. -/
theorem save_tree (h : Heap R) : ∀ (n : Nat) (s : List Item) (es : List Nat), flatSeq h n s = some es →
    ∃ ts sub, s.mapM (h.saveItem n) = some ts ∧ Tree.leavesL ts = es.map (fun e => saveDict (h.elem e)) ∧
      Uses h s (Tree.listsL ts) ∧ Unfolds h (s.filter Item.isLine) sub ∧
      Tree.inner ts = sub.map (fun e => saveDict (h.elem e)) ∧
      Tree.tops ts = (s.filterMap fun i => match i with
        | .elem e => some (saveDict (h.elem e))
        | .line _ => none) := by
  intro n
  induction n with
  | zero =>
    intro s
    induction s with
    | nil =>
      intro es hes
      rw [flatSeq_nil] at hes
      cases hes
      exact ⟨[], [], rfl, rfl, .nil, .nil, rfl, rfl⟩
    | cons i s ih =>
      intro es hes
      cases i with
      | line k => rw [flatSeq_cons] at hes; cases hes
      | elem e =>
        rw [flatSeq_elem] at hes
        cases hs : flatSeq h 0 s with
        | none => rw [hs] at hes; cases hes
        | some es' =>
          rw [hs] at hes
          cases hes
          obtain ⟨ts, sub, a1, a2, a3, a4, a5, a6⟩ := ih es' hs
          refine ⟨.elem (saveDict (h.elem e)) :: ts, sub, ?_, ?_, ?_, a4, a5, ?_⟩
          · rw [List.mapM_cons, a1]; rfl
          · rw [Tree.leavesL, Tree.leaves, a2]; rfl
          · rw [Tree.listsL, Tree.lists, Nat.zero_add]; exact .elem a3
          · rw [Tree.tops, a6]; rfl
  | succ n ihn =>
    intro s
    induction s with
    | nil =>
      intro es hes
      rw [flatSeq_nil] at hes
      cases hes
      exact ⟨[], [], rfl, rfl, .nil, .nil, rfl, rfl⟩
    | cons i s ih =>
      intro es hes
      cases i with
      | elem e =>
        rw [flatSeq_elem] at hes
        cases hs : flatSeq h (n + 1) s with
        | none => rw [hs] at hes; cases hes
        | some es' =>
          rw [hs] at hes
          cases hes
          obtain ⟨ts, sub, a1, a2, a3, a4, a5, a6⟩ := ih es' hs
          refine ⟨.elem (saveDict (h.elem e)) :: ts, sub, ?_, ?_, ?_, a4, a5, ?_⟩
          · rw [List.mapM_cons, a1]; rfl
          · rw [Tree.leavesL, Tree.leaves, a2]; rfl
          · rw [Tree.listsL, Tree.lists, Nat.zero_add]; exact .elem a3
          · rw [Tree.tops, a6]; rfl
      | line k =>
        rw [flatSeq_cons, flatItem_line] at hes
        cases hk : flatSeq h n (h.line k).seq with
        | none => rw [hk] at hes; cases hes
        | some ks =>
          rw [hk] at hes
          cases hs : flatSeq h (n + 1) s with
          | none => rw [hs] at hes; cases hes
          | some es' =>
            rw [hs] at hes
            cases hes
            obtain ⟨ts, sub, a1, a2, a3, a4, a5, a6⟩ := ih es' hs
            obtain ⟨us, sub', b1, b2, b3, -, -, -⟩ := ihn _ ks hk
            refine ⟨.line us :: ts, ks ++ sub, ?_, ?_, ?_, ?_, ?_, ?_⟩
            · rw [List.mapM_cons, a1]
              have : h.saveItem (n + 1) (.line k) = some (.line us) := by
                rw [Heap.saveItem, b1]; rfl
              rw [this]
              rfl
            · rw [Tree.leavesL, Tree.leaves, a2, b2, List.map_append]
            · rw [Tree.listsL, Tree.lists]; exact .line b3 a3
            · rw [List.filter_cons_of_pos rfl]
              exact .line (flatSeq_sound h n _ _ hk) a4
            · rw [Tree.inner, a5, b2, List.map_append]
            · rw [Tree.tops, a6]; rfl

theorem dictOf_save (x : Elem R) (hn : Norm x.params) (ht : strip (lower x.type) = x.type)
    (hk : ∀ kv ∈ x.params, kv.1 ∉ badKeys) :
    Loadable (saveDict x) ∧ dictName (saveDict x) = x.name ∧ dictDef (saveDict x) = defOf x := by
  have hk1 : ∀ kv ∈ x.params, kv.1 ≠ "name".toList := fun kv h e => hk kv h (by rw [e]; exact List.mem_cons_self)
  have hk2 : ∀ kv ∈ x.params, kv.1 ≠ "type".toList := fun kv h e =>
    hk kv h (by rw [e]; exact List.mem_cons_of_mem _ List.mem_cons_self)
  have e1 : dget (saveDict x) "name".toList = some (.str x.name) := by
    rw [saveDict_eq x hn hk, List.cons_append, dget_cons, if_pos rfl]
  have e2 : dget (saveDict x) "type".toList = some (.str x.type) := by
    rw [dget_some_iff]
    refine ⟨("name".toList, .str x.name) :: x.params, [], saveDict_eq x hn hk, ?_⟩
    intro p hp
    rcases List.mem_cons.mp hp with hp | hp
    · rw [hp]; show "name".toList ≠ "type".toList; decide
    · exact hk2 p hp
  have e3 : loadParams (saveDict x) = x.params := by
    unfold loadParams
    rw [saveDict_eq x hn hk, List.cons_append, List.filter_cons, List.filter_append]
    have hf : x.params.filter (fun kv => decide (kv.1 ≠ "type".toList ∧ kv.1 ≠ "name".toList)) = x.params := by
      rw [List.filter_eq_self]
      intro kv hkv
      simp only [decide_eq_true_eq]
      exact ⟨hk2 kv hkv, hk1 kv hkv⟩
    rw [hf]
    simp
  refine ⟨⟨x.name, x.type, e1, e2, ?_⟩, by unfold dictName; rw [e1], ?_⟩
  · rw [e3]
    intro kv hkv hr
    exact hk kv hkv (List.mem_cons_of_mem _ (List.mem_cons_of_mem _ hr))
  · unfold dictDef
    rw [e2]
    simp only [defOf]
    rw [ht]
    congr 1
    funext k
    exact (congrArg (assigned · k) e3).trans (assigned_norm hn k)

theorem sameElem_iff (x y : Elem R) :
    SameElem x y ↔ (x.name, some (defOf x)) = (y.name, some (defOf y)) := by
  unfold SameElem defOf
  simp only [Prod.mk.injEq, Option.some.injEq, Def.mk.injEq, funext_iff]

theorem forall₂_map_eq {α β γ : Type} (f : α → γ) (g : β → γ) (as : List α) (bs : List β) :
    List.Forall₂ (fun a b => f a = g b) as bs ↔ as.map f = bs.map g := by
  constructor
  · intro h
    induction h with
    | nil => rfl
    | cons h1 _ ih => simp [h1, ih]
  · intro h
    exact forall₂_of_map f g _ as bs h fun _ _ _ _ h => h

/-- After any history of calls, with any nesting: how many elements come back, and the exact
condition under which they are those that were saved. There is at most one use of a
sub-beamline (at any level) or none of them has elements; and a name at the top, and a
name in sub-beamlines, has one definition each. No parameter may be called `name`, `type`, `self`,
`element_name` or `element_type` (`yaml_name_fails`). -/
theorem yaml_iff (name name' : Option Str) (ops : List (Op R))
    (hk : ∀ e < (runOps name ops).nElem, ∀ kv ∈ ((runOps name ops).elem e).params, kv.1 ∉ badKeys)
    (fuel : Nat) (hf : (runOps name ops).nLine ≤ fuel) :
    ∃ ts h' es sub n ids, (runOps name ops).save fuel 0 = some ts ∧
      (Heap.init name' : Heap R).load 0 ts = (h', none) ∧
      (runOps name ops).elementsOf fuel 0 = some es ∧ h'.elementsOf fuel 0 = some ids ∧
      Unfolds (runOps name ops) (((runOps name ops).line 0).seq.filter Item.isLine) sub ∧
      Uses (runOps name ops) ((runOps name ops).line 0).seq n ∧
      ids.length + sub.length = es.length + n * sub.length ∧
      (List.Forall₂ (fun e e' => SameElem ((runOps name ops).elem e) (h'.elem e')) es ids ↔
        (sub = [] ∨ n = 1) ∧
        (∀ e, .elem e ∈ ((runOps name ops).line 0).seq → ∀ e', .elem e' ∈ ((runOps name ops).line 0).seq →
          ((runOps name ops).elem e).name = ((runOps name ops).elem e').name →
          SameElem ((runOps name ops).elem e) ((runOps name ops).elem e')) ∧
        ∀ e ∈ sub, ∀ e' ∈ sub, ((runOps name ops).elem e).name = ((runOps name ops).elem e').name →
          SameElem ((runOps name ops).elem e) ((runOps name ops).elem e')) := by
  have w := run_wf (R := R) name ops
  have nrm := run_normal name ops
  set h := runOps name ops with hh
  obtain ⟨es, hes⟩ := w.elementsOf_some w.pos
  have hes := hes fuel hf
  obtain ⟨m, rfl⟩ : ∃ m, fuel = m + 1 := ⟨fuel - 1, by have := w.pos; omega⟩
  have hu := flatSeq_sound h _ _ _ hes
  have hlt := w.line_unfolds_lt w.pos hu
  obtain ⟨ts, sub, a1, a2, a3, a4, a5, a6⟩ := save_tree h _ _ es hes
  have good : ∀ e < h.nElem, Loadable (saveDict (h.elem e)) ∧ dictName (saveDict (h.elem e)) = (h.elem e).name ∧
      dictDef (saveDict (h.elem e)) = defOf (h.elem e) := fun e he =>
    dictOf_save _ (nrm e he).1 (nrm e he).2 (hk e he)
  obtain ⟨h', ids, b1, b2, b3⟩ := load_exact name' ts (by
    rw [a2]
    intro d hd
    obtain ⟨e, he, rfl⟩ := List.mem_map.mp hd
    exact (good e (hlt e he)).1) m
  have hsub : ∀ e ∈ sub, e < h.nElem := by
    refine w.unfolds_lt a4 ?_ ?_
    · intro k hkm
      exact (w.subs 0 w.pos k (List.mem_filter.mp hkm).1).2
    · intro e he
      have := (List.mem_filter.mp he).2
      cases this
  obtain ⟨l1, l2⟩ := marks_length ts
  refine ⟨ts, h', es, sub, _, ids, a1, b1, hes, b2, a4, a3, ?_, ?_⟩
  · have c1 := congrArg List.length b3
    rw [List.length_map, l1, a5, List.length_map] at c1
    rw [a2, a5, List.length_map, List.length_map] at l2
    omega
  · have e1 : List.Forall₂ (fun e e' => SameElem (h.elem e) (h'.elem e')) es ids ↔
        es.map (fun e => ((h.elem e).name, some (defOf (h.elem e)))) =
          ids.map (fun e => ((h'.elem e).name, some (defOf (h'.elem e)))) := by
      rw [← forall₂_map_eq]
      simp only [sameElem_iff]
    have e2 : es.map (fun e => ((h.elem e).name, some (defOf (h.elem e)))) =
        (Tree.leavesL ts).map (fun d => (dictName d, some (dictDef d))) := by
      rw [a2, List.map_map]
      apply List.map_congr_left
      intro e he
      simp only [Function.comp_apply, (good e (hlt e he)).2.1, (good e (hlt e he)).2.2]
    rw [e1, e2, b3, eq_comm, loadedList_iff]
    refine and_congr (or_congr ?_ Iff.rfl) (and_congr ?_ ?_)
    · rw [a5]; simp
    · rw [a6]
      constructor
      · intro c e he e' he' hn
        have g1 := good e (w.elems 0 w.pos e he)
        have g2 := good e' (w.elems 0 w.pos e' he')
        have := c (saveDict (h.elem e)) (List.mem_filterMap.mpr ⟨_, he, rfl⟩) (saveDict (h.elem e'))
          (List.mem_filterMap.mpr ⟨_, he', rfl⟩) (by rw [g1.2.1, g2.2.1, hn])
        rw [g1.2.2, g2.2.2] at this
        rw [sameElem_iff, hn, this]
      · intro c d hd d' hd' hn
        obtain ⟨i, hi, hi2⟩ := List.mem_filterMap.mp hd
        obtain ⟨i', hi', hi2'⟩ := List.mem_filterMap.mp hd'
        cases i with
        | line k => cases hi2
        | elem e =>
          cases i' with
          | line k => cases hi2'
          | elem e' =>
            have q1 := Option.some.inj hi2
            have q2 := Option.some.inj hi2'
            have g1 := good e (w.elems 0 w.pos e hi)
            have g2 := good e' (w.elems 0 w.pos e' hi')
            rw [← q1, ← q2] at hn ⊢
            rw [g1.2.1, g2.2.1] at hn
            have := (sameElem_iff _ _).mp (c e hi e' hi' hn)
            simp only [Prod.mk.injEq, Option.some.injEq] at this
            rw [g1.2.2, g2.2.2, this.2]
    · rw [a5]
      constructor
      · intro c e he e' he' hn
        have g1 := good e (hsub e he)
        have g2 := good e' (hsub e' he')
        have := c _ (List.mem_map_of_mem he) _ (List.mem_map_of_mem he') (by rw [g1.2.1, g2.2.1, hn])
        rw [g1.2.2, g2.2.2] at this
        rw [sameElem_iff, hn, this]
      · intro c d hd d' hd' hn
        obtain ⟨e, he, rfl⟩ := List.mem_map.mp hd
        obtain ⟨e', he', rfl⟩ := List.mem_map.mp hd'
        have g1 := good e (hsub e he)
        have g2 := good e' (hsub e' he')
        rw [g1.2.1, g2.2.1] at hn
        have := (sameElem_iff _ _).mp (c e he e' he' hn)
        simp only [Prod.mk.injEq, Option.some.injEq] at this
        rw [g1.2.2, g2.2.2, this.2]

theorem Uses.unique {h : Heap R} {s : List Item} {m n : Nat} (hm : Uses h s m) (hn : Uses h s n) : m = n := by
  induction hm generalizing n with
  | nil => cases hn; rfl
  | elem _ ih => cases hn with | elem b => exact ih b
  | line _ _ ih1 ih2 =>
    cases hn with
    | line b1 b2 => rw [ih1 b1, ih2 b2]

/-- A list within a list: `a = (q, b)`, `b = (d)`, used once. Two uses of sub-beamlines. -/
def exNest : List (Op Int) :=
  [.addBeamline 0 (some "a".toList), .addElement 1 "q".toList "quad".toList [("L".toList, .num 3)] false,
   .addBeamline 1 (some "b".toList), .addElement 2 "d".toList "drift".toList [] false]

/-- One use of a sub-beamline between two elements. -/
def exOne : List (Op Int) :=
  [.addElement 0 "d".toList "drift".toList [] false, .addBeamline 0 (some "a".toList),
   .addElement 1 "q".toList "quad".toList [("L".toList, .num 3)] false, .addElement 0 "d".toList "drift".toList [] false]

example : (∀ e < (runOps none exNest).nElem, ∀ kv ∈ ((runOps none exNest).elem e).params, kv.1 ∉ badKeys) ∧
    Uses (runOps none exNest) ((runOps none exNest).line 0).seq 2 ∧
    Unfolds (runOps none exNest) (((runOps none exNest).line 0).seq.filter Item.isLine) [0, 1] := by
  refine ⟨by decide +kernel, ?_, ?_⟩
  · exact .line (l := 1) (.elem (e := 0) (.line (l := 2) (.elem (e := 1) .nil) .nil)) .nil
  · exact .line (l := 1) (s := []) (as := [0, 1]) (bs := [])
      (.elem (e := 0) (.line (l := 2) (as := [1]) (bs := []) (.elem (e := 1) .nil) .nil)) .nil

/-- The example comes back with four elements instead of two. -/
example (name : Option Str) : ∃ ts h' ids, (runOps none exNest).save 3 0 = some ts ∧
    (Heap.init name : Heap Int).load 0 ts = (h', none) ∧ h'.elementsOf 3 0 = some ids ∧ ids.length = 4 := by
  obtain ⟨ts, h', es, sub, n, ids, a1, a2, a3, a4, a5, a6, a7, -⟩ := yaml_iff none name exNest (by decide +kernel) 3 (by decide +kernel)
  have e1 : sub = [0, 1] := a5.unique (.line (l := 1) (s := []) (as := [0, 1]) (bs := [])
      (.elem (e := 0) (.line (l := 2) (as := [1]) (bs := []) (.elem (e := 1) .nil) .nil)) .nil)
  have e2 : es = [0, 1] := by
    have : (runOps none exNest).elementsOf 3 0 = some [0, 1] := by decide +kernel
    rw [this] at a3
    exact (Option.some.inj a3).symm
  have e3 : n = 2 := a6.unique (.line (l := 1) (.elem (e := 0) (.line (l := 2) (.elem (e := 1) .nil) .nil)) .nil)
  subst e1 e2 e3
  exact ⟨ts, h', ids, a1, a2, a4, by simpa using a7⟩

/-- One sub-beamline comes back. -/
example (name : Option Str) : ∃ ts h' ids, (runOps none exOne).save 2 0 = some ts ∧
    (Heap.init name : Heap Int).load 0 ts = (h', none) ∧ h'.elementsOf 2 0 = some ids ∧
    List.Forall₂ (fun e e' => SameElem ((runOps none exOne).elem e) (h'.elem e')) [0, 1, 0] ids := by
  obtain ⟨ts, h', es, sub, n, ids, a1, a2, a3, a4, a5, a6, -, a8⟩ := yaml_iff none name exOne (by decide +kernel) 2 (by decide +kernel)
  have e1 : sub = [1] := a5.unique (.line (l := 1) (s := []) (as := [1]) (bs := []) (.elem (e := 1) .nil) .nil)
  have e2 : es = [0, 1, 0] := by
    have : (runOps none exOne).elementsOf 2 0 = some [0, 1, 0] := by decide +kernel
    rw [this] at a3
    exact (Option.some.inj a3).symm
  have e3 : n = 1 := a6.unique (.elem (e := 0) (.line (l := 1) (.elem (e := 1) .nil) (.elem (e := 0) .nil)))
  subst e1 e2 e3
  refine ⟨ts, h', ids, a1, a2, a4, a8.mpr ⟨.inr rfl, ?_, ?_⟩⟩
  · have hs : ((runOps none exOne).line 0).seq = [.elem 0, .line 1, .elem 0] := by decide +kernel
    rw [hs]
    intro e he e' he' _
    simp only [List.mem_cons, Item.elem.injEq, reduceCtorEq, List.not_mem_nil, or_false, false_or, or_self] at he he'
    subst he he'
    exact ⟨rfl, rfl, fun _ => rfl⟩
  · intro e he e' he' _
    rw [List.mem_singleton] at he he'
    subst he he'
    exact ⟨rfl, rfl, fun _ => rfl⟩

end Verif.Lattice
