import Verif.Lattice.Lemmas

/-! # Invariants of the heap over all histories of calls -/

namespace Verif.Lattice

variable {R : Type}

/-- References stay inside the heap, sub-beamlines have larger numbers than the beamlines that
contain them, everything knows the top level beamline 0, and every beamline is used. -/
structure Heap.WF (h : Heap R) : Prop where
  pos : 0 < h.nLine
  elems : ∀ l < h.nLine, ∀ e, Item.elem e ∈ (h.line l).seq → e < h.nElem
  subs : ∀ l < h.nLine, ∀ k, Item.line k ∈ (h.line l).seq → l < k ∧ k < h.nLine
  dictE : ∀ l < h.nLine, ∀ p ∈ (h.line l).elements, p.2 < h.nElem ∧ (h.elem p.2).name = p.1
  dictL : ∀ l < h.nLine, ∀ p ∈ (h.line l).lines, l < p.2 ∧ p.2 < h.nLine
  top : ∀ l < h.nLine, (h.line l).top = 0
  etop : ∀ e < h.nElem, (h.elem e).top = 0
  reach : ∀ k < h.nLine, 0 < k → ∃ l < k, Item.line k ∈ (h.line l).seq

theorem init_wf (name : Option Str) : (Heap.init name : Heap R).WF := by
  constructor
  · exact Nat.one_pos
  · intro l _ e he; simp [Heap.init, newLine] at he
  · intro l _ k hk; simp [Heap.init, newLine] at hk
  · intro l _ p hp; simp [Heap.init, newLine] at hp
  · intro l _ p hp; simp [Heap.init, newLine] at hp
  · intro l hl; simp [Heap.init] at hl; simp [hl, Heap.init, newLine]
  · intro e he; simp [Heap.init] at he
  · intro k hk hk0; simp [Heap.init] at hk; omega

theorem Heap.WF.setElem {h : Heap R} (w : h.WF) {e : Nat} {x : Elem R} (hn : x.name = (h.elem e).name)
    (ht : x.top = 0) : (h.setElem e x).WF := by
  have key : ∀ k, ((h.setElem e x).elem k).name = (h.elem k).name := by
    intro k; simp only [Heap.setElem]; split_ifs with hk
    · rw [hk, hn]
    · rfl
  refine ⟨w.pos, w.elems, w.subs, ?_, w.dictL, w.top, ?_, w.reach⟩
  · intro l hl p hp
    rw [key]
    exact w.dictE l hl p hp
  · intro k hk
    simp only [Heap.setElem]
    split_ifs
    · exact ht
    · exact w.etop k hk

/-- An item that may be appended to beamline `l`. -/
def ItemOk (h : Heap R) (l : Nat) : Item → Prop
  | .elem e => e < h.nElem
  | .line k => l < k ∧ k < h.nLine

theorem append_seq (h : Heap R) (l k : Nat) (i : Item) :
    ((h.append l i).line k).seq = if k = l then (h.line l).seq ++ [i] else (h.line k).seq := by
  simp only [Heap.append, Heap.setLine]; split_ifs <;> rfl

theorem append_elements (h : Heap R) (l k : Nat) (i : Item) :
    ((h.append l i).line k).elements = (h.line k).elements := by
  simp only [Heap.append, Heap.setLine]; split_ifs with hk
  · rw [hk]
  · rfl

theorem append_lines (h : Heap R) (l k : Nat) (i : Item) :
    ((h.append l i).line k).lines = (h.line k).lines := by
  simp only [Heap.append, Heap.setLine]; split_ifs with hk
  · rw [hk]
  · rfl

theorem append_top (h : Heap R) (l k : Nat) (i : Item) :
    ((h.append l i).line k).top = (h.line k).top := by
  simp only [Heap.append, Heap.setLine]; split_ifs with hk
  · rw [hk]
  · rfl

theorem append_name (h : Heap R) (l k : Nat) (i : Item) :
    ((h.append l i).line k).name = (h.line k).name := by
  simp only [Heap.append, Heap.setLine]; split_ifs with hk
  · rw [hk]
  · rfl

theorem Heap.WF.append {h : Heap R} (w : h.WF) {l : Nat} (hl : l < h.nLine) {i : Item}
    (hi : ItemOk h l i) : (h.append l i).WF := by
  refine ⟨w.pos, ?_, ?_, ?_, ?_, ?_, w.etop, ?_⟩
  · intro k hk e he
    rw [append_seq] at he
    split_ifs at he with h1
    · rcases List.mem_append.mp he with he | he
      · exact w.elems l hl e he
      · simp at he; subst he; exact hi
    · exact w.elems k hk e he
  · intro k hk j hj
    rw [append_seq] at hj
    split_ifs at hj with h1
    · rcases List.mem_append.mp hj with hj | hj
      · rw [h1]; exact w.subs l hl j hj
      · simp at hj; subst hj; rw [h1]; exact hi
    · exact w.subs k hk j hj
  · intro k hk p hp
    rw [append_elements] at hp
    exact w.dictE k hk p hp
  · intro k hk p hp
    rw [append_lines] at hp
    exact w.dictL k hk p hp
  · intro k hk
    rw [append_top]
    exact w.top k hk
  · intro k hk hk0
    obtain ⟨m, hm, hmk⟩ := w.reach k hk hk0
    refine ⟨m, hm, ?_⟩
    rw [append_seq]
    split_ifs with h1
    · exact List.mem_append_left _ (h1 ▸ hmk)
    · exact hmk

theorem setLine_same (h : Heap R) (l : Nat) : h.setLine l (h.line l) = h := by
  cases h with
  | mk el ne li nl =>
    simp only [Heap.setLine, Heap.mk.injEq, true_and, and_true]
    funext k
    split_ifs with hk
    · rw [hk]
    · rfl

/-! ## `add_element` -/

/-- What `useElement` does. -/
structure Used (h : Heap R) (l : Nat) (name type : Str) (ps : List (Str × PVal R)) (h1 : Heap R) (e : Nat) :
    Prop where
  wf : h1.WF
  nLine : h1.nLine = h.nLine
  seq : ∀ k, (h1.line k).seq = (h.line k).seq
  lines : ∀ k, (h1.line k).lines = (h.line k).lines
  lname : ∀ k, (h1.line k).name = (h.line k).name
  lt : e < h1.nElem
  found : dget (h1.line l).elements name = some e
  other : ∀ k n, ¬ (k = l ∧ n = name) → dget (h1.line k).elements n = dget (h.line k).elements n
  ename : (h1.elem e).name = name
  old : ∀ k < h.nElem, h1.elem k = h.elem k
  more : h.nElem ≤ h1.nElem
  first : dget (h.line l).elements name = some e ∧ h1 = h ∨ dget (h.line l).elements name = none ∧
    e = h.nElem ∧ h1.nElem = h.nElem + 1 ∧ h1.elem e = ⟨name, strip (lower type), initParams ps, 0⟩

theorem used_of {h : Heap R} (w : h.WF) {l : Nat} (hl : l < h.nLine) {name type : Str}
    {ps : List (Str × PVal R)} {r : Heap R × Nat} (hr : h.useElement l name type ps = .ok r) :
    Used h l name type ps r.1 r.2 := by
  unfold Heap.useElement at hr
  cases hd : dget (h.line l).elements name with
  | some e =>
    rw [hd] at hr
    simp only [Except.ok.injEq] at hr
    subst hr
    have hm := w.dictE l hl _ (mem_of_dget hd)
    exact ⟨w, rfl, fun _ => rfl, fun _ => rfl, fun _ => rfl, hm.1, hd, fun _ _ _ => rfl, hm.2, fun _ _ => rfl,
      Nat.le_refl _, .inl ⟨hd, rfl⟩⟩
  | none =>
    rw [hd] at hr
    simp only [newElem] at hr
    split_ifs at hr with hps
    · cases hr
    change Except.ok _ = _ at hr
    simp only [Except.ok.injEq] at hr
    subst hr
    have hlook : ∀ k n, dget ((Heap.setLine
        { h.setElem h.nElem ⟨name, strip (lower type), initParams ps, 0⟩ with nElem := h.nElem + 1 } l
        { (h.line l) with elements := dset (h.line l).elements name h.nElem }).line k).elements n
        = if k = l ∧ n = name then some h.nElem else dget (h.line k).elements n := by
      intro k n
      simp only [Heap.setLine, Heap.setElem]
      by_cases hk : k = l
      · subst hk
        simp only [if_true, true_and]
        rw [dget_dset]
      · simp [hk]
    have hold : ∀ k < h.nElem, (if k = h.nElem then (⟨name, strip (lower type), initParams ps, 0⟩ : Elem R)
        else h.elem k) = h.elem k := by
      intro k hk
      rw [if_neg (by omega)]
    refine ⟨⟨w.pos, ?_, ?_, ?_, ?_, ?_, ?_, ?_⟩, rfl, ?_, ?_, ?_, Nat.lt_succ_self _, ?_, ?_, ?_, ?_, Nat.le_succ _, ?_⟩
    · intro k hk e he
      refine Nat.lt_succ_of_lt (w.elems k hk e ?_)
      simp only [Heap.setLine, Heap.setElem] at he
      split_ifs at he with h1
      · rw [h1]; exact he
      · exact he
    · intro k hk j hj
      refine w.subs k hk j ?_
      simp only [Heap.setLine, Heap.setElem] at hj
      split_ifs at hj with h1
      · rw [h1]; exact hj
      · exact hj
    · intro k hk p hp
      simp only [Heap.setLine, Heap.setElem] at hp ⊢
      split_ifs at hp with h1
      · rcases mem_dset _ _ _ _ hp with hp | hp
        · subst hp; simp
        · have := w.dictE l hl p hp
          exact ⟨Nat.lt_succ_of_lt this.1, by rw [hold _ this.1]; exact this.2⟩
      · have := w.dictE k hk p hp
        exact ⟨Nat.lt_succ_of_lt this.1, by rw [hold _ this.1]; exact this.2⟩
    · intro k hk p hp
      refine w.dictL k hk p ?_
      simp only [Heap.setLine, Heap.setElem] at hp
      split_ifs at hp with h1
      · rw [h1]; exact hp
      · exact hp
    · intro k hk
      simp only [Heap.setLine, Heap.setElem]
      split_ifs with h1
      · exact w.top l hl
      · exact w.top k hk
    · intro e he
      simp only [Heap.setLine, Heap.setElem]
      split_ifs with h1
      · rfl
      · exact w.etop e (Nat.lt_of_le_of_ne (Nat.lt_succ_iff.mp he) h1)
    · intro k hk hk0
      obtain ⟨m, hm, hmk⟩ := w.reach k hk hk0
      refine ⟨m, hm, ?_⟩
      simp only [Heap.setLine, Heap.setElem]
      split_ifs with h1
      · rw [← h1]; exact hmk
      · exact hmk
    · intro k
      simp only [Heap.setLine, Heap.setElem]
      split_ifs with h1
      · rw [h1]
      · rfl
    · intro k
      simp only [Heap.setLine, Heap.setElem]
      split_ifs with h1
      · rw [h1]
      · rfl
    · intro k
      simp only [Heap.setLine, Heap.setElem]
      split_ifs with h1
      · rw [h1]
      · rfl
    · exact (hlook l name).trans (if_pos ⟨rfl, rfl⟩)
    · intro k n hkn
      exact (hlook k n).trans (if_neg hkn)
    · simp [Heap.setLine, Heap.setElem]
    · intro k hk
      exact hold k hk
    · exact .inr ⟨hd, rfl, rfl, by simp [Heap.setLine, Heap.setElem]⟩

theorem Heap.WF.addElement {h : Heap R} (w : h.WF) {l : Nat} (hl : l < h.nLine) (name type : Str)
    (ps : List (Str × PVal R)) (s : Bool) : (h.addElement l name type ps s).1.WF := by
  unfold Heap.addElement
  cases hu : h.useElement l name type ps with
  | error err => exact w
  | ok r =>
    obtain ⟨h1, e⟩ := r
    have u : Used h l name type ps h1 e := used_of w hl hu
    have hl1 : l < h1.nLine := by have := u.nLine; omega
    have w2 : (h1.setElem e { h1.elem e with top := (h1.line l).top }).WF :=
      u.wf.setElem rfl (u.wf.top l hl1)
    simp only
    cases s with
    | false =>
      simp only [Bool.false_eq_true, if_false]
      exact w2.append hl1 (i := .elem e) u.lt
    | true =>
      simp only [if_true]
      split
      · exact w2
      · exact w2
      · rename_i k hk
        have hmem : Item.line k ∈ (h1.line l).seq := List.mem_of_getLast? hk
        exact w2.append (u.wf.subs l hl1 k hmem).2 (i := .elem e) u.lt

/-! ## `add_beamline` -/

theorem Heap.WF.addBeamline {h : Heap R} (w : h.WF) {l : Nat} (hl : l < h.nLine) (name : Option Str) :
    (h.addBeamline l name).WF := by
  unfold Heap.addBeamline Heap.useLine
  cases hd : dget (h.line l).lines name with
  | some k =>
    simp only
    have hk := w.dictL l hl _ (mem_of_dget hd)
    have w2 := w.append hl (i := .line k) hk
    have : { (h.append l (.line k)).line k with top := ((h.append l (.line k)).line l).top } =
        (h.append l (.line k)).line k := by
      rw [w2.top l hl, ← w2.top k hk.2]
    rw [this, setLine_same]
    exact w2
  | none =>
    simp only
    have hne : h.nLine ≠ l := by omega
    have hne' : l ≠ h.nLine := by omega
    have htop := w.top l hl
    refine ⟨Nat.succ_pos _, ?_, ?_, ?_, ?_, ?_, w.etop, ?_⟩
    · intro k hk e he
      simp only [Heap.append, Heap.setLine, newLine, if_pos, if_neg hne, if_neg hne'] at he
      split_ifs at he with h1 h2
      · simp at he
      · simp only [List.mem_append, List.mem_singleton, reduceCtorEq, or_false] at he
        exact w.elems l hl e he
      · exact w.elems k (by change k < h.nLine + 1 at hk; omega) e he
    · intro k hk j hj
      change k < h.nLine + 1 at hk
      change k < j ∧ j < h.nLine + 1
      simp only [Heap.append, Heap.setLine, newLine, if_pos, if_neg hne, if_neg hne'] at hj
      split_ifs at hj with h1 h2
      · simp at hj
      · subst h2
        simp only [List.mem_append, List.mem_singleton, Item.line.injEq] at hj
        rcases hj with hj | hj
        · have := w.subs k hl j hj
          omega
        · omega
      · have := w.subs k (by omega) j hj
        omega
    · intro k hk p hp
      simp only [Heap.append, Heap.setLine, newLine, if_pos, if_neg hne, if_neg hne'] at hp
      split_ifs at hp with h1 h2
      · simp at hp
      · exact w.dictE l hl p hp
      · exact w.dictE k (by change k < h.nLine + 1 at hk; omega) p hp
    · intro k hk p hp
      change k < h.nLine + 1 at hk
      change k < p.2 ∧ p.2 < h.nLine + 1
      simp only [Heap.append, Heap.setLine, newLine, if_pos, if_neg hne, if_neg hne'] at hp
      split_ifs at hp with h1 h2
      · simp at hp
      · subst h2
        rcases mem_dset _ _ _ _ hp with hp | hp
        · subst hp; simp only; omega
        · have := w.dictL k hl p hp
          omega
      · have := w.dictL k (by omega) p hp
        omega
    · intro k hk
      change k < h.nLine + 1 at hk
      simp only [Heap.append, Heap.setLine, newLine, if_neg hne, if_neg hne']
      split_ifs with h1 h2
      · simpa using htop
      · simpa using htop
      · exact w.top k (by omega)
    · intro k hk hk0
      change k < h.nLine + 1 at hk
      by_cases hkn : k = h.nLine
      · subst hkn
        refine ⟨l, hl, ?_⟩
        simp [Heap.append, Heap.setLine, hne']
      · obtain ⟨m, hm, hmk⟩ := w.reach k (by omega) hk0
        refine ⟨m, hm, ?_⟩
        have hmn : m ≠ h.nLine := by omega
        simp only [Heap.append, Heap.setLine, if_neg hmn, if_neg hne']
        split_ifs with h1
        · simp [← h1, hmk]
        · exact hmk

/-! ## `edit_element` -/

/-- The heap after editing one entry. -/
theorem editItem_lines (h : Heap R) (pv : List (Str × PVal R)) (i : Item) :
    (h.editItem pv i).1.line = h.line ∧ (h.editItem pv i).1.nLine = h.nLine ∧
    (h.editItem pv i).1.nElem = h.nElem := by
  cases i with
  | elem e => exact ⟨rfl, rfl, rfl⟩
  | line k => simp only [Heap.editItem]; split_ifs <;> exact ⟨rfl, rfl, rfl⟩

theorem editItem_frame (h : Heap R) (pv : List (Str × PVal R)) (i : Item) (k : Nat) :
    ((h.editItem pv i).1.elem k).name = (h.elem k).name ∧
    ((h.editItem pv i).1.elem k).top = (h.elem k).top ∧
    ((h.editItem pv i).1.elem k).type = (h.elem k).type := by
  cases i with
  | elem e =>
    simp only [Heap.editItem, Heap.setElem]
    split_ifs with hk
    · subst hk; exact ⟨rfl, rfl, rfl⟩
    · exact ⟨rfl, rfl, rfl⟩
  | line k => simp only [Heap.editItem]; split_ifs <;> exact ⟨rfl, rfl, rfl⟩

theorem editItems_lines (pv : List (Str × PVal R)) (is : List Item) (h : Heap R) :
    (Heap.editItems pv is h).1.line = h.line ∧ (Heap.editItems pv is h).1.nLine = h.nLine ∧
    (Heap.editItems pv is h).1.nElem = h.nElem := by
  induction is generalizing h with
  | nil => exact ⟨rfl, rfl, rfl⟩
  | cons i is ih =>
    have h1 := editItem_lines h pv i
    simp only [Heap.editItems]
    split
    · rename_i h' heq
      rw [heq] at h1
      have h2 := ih h'
      exact ⟨h2.1.trans h1.1, h2.2.1.trans h1.2.1, h2.2.2.trans h1.2.2⟩
    · rename_i h' e heq
      rw [heq] at h1
      exact h1

theorem editItems_frame (pv : List (Str × PVal R)) (is : List Item) (h : Heap R) (k : Nat) :
    ((Heap.editItems pv is h).1.elem k).name = (h.elem k).name ∧
    ((Heap.editItems pv is h).1.elem k).top = (h.elem k).top ∧
    ((Heap.editItems pv is h).1.elem k).type = (h.elem k).type := by
  induction is generalizing h with
  | nil => exact ⟨rfl, rfl, rfl⟩
  | cons i is ih =>
    have h1 := editItem_frame h pv i k
    simp only [Heap.editItems]
    split
    · rename_i h' heq
      rw [heq] at h1
      have h2 := ih h'
      exact ⟨h2.1.trans h1.1, h2.2.1.trans h1.2.1, h2.2.2.trans h1.2.2⟩
    · rename_i h' e heq
      rw [heq] at h1
      exact h1

/-- A heap that differs only in parameters is as good. -/
theorem Heap.WF.frame {h h' : Heap R} (w : h.WF) (h1 : h'.line = h.line) (h2 : h'.nLine = h.nLine)
    (h3 : h'.nElem = h.nElem) (h4 : ∀ k, (h'.elem k).name = (h.elem k).name)
    (h5 : ∀ k, (h'.elem k).top = (h.elem k).top) : h'.WF := by
  constructor
  · rw [h2]; exact w.pos
  · rw [h1, h2, h3]; exact w.elems
  · rw [h1, h2]; exact w.subs
  · rw [h1, h2, h3]
    intro l hl p hp
    rw [h4]
    exact w.dictE l hl p hp
  · rw [h1, h2]; exact w.dictL
  · rw [h1, h2]; exact w.top
  · rw [h3]
    intro e he
    rw [h5]
    exact w.etop e he
  · rw [h1, h2]; exact w.reach

theorem editName_frame (h : Heap R) (l : Nat) (name : Str) (ps : List Str) (vs : List (PVal R)) :
    (h.editName l name ps vs).1.line = h.line ∧ (h.editName l name ps vs).1.nLine = h.nLine ∧
    (h.editName l name ps vs).1.nElem = h.nElem ∧
    ∀ k, ((h.editName l name ps vs).1.elem k).name = (h.elem k).name ∧
    ((h.editName l name ps vs).1.elem k).top = (h.elem k).top ∧
    ((h.editName l name ps vs).1.elem k).type = (h.elem k).type := by
  have h1 := editItems_lines (ps.zip vs) ((h.line l).seq.filter fun i => h.itemName i = some name) h
  exact ⟨h1.1, h1.2.1, h1.2.2, fun k => editItems_frame _ _ _ k⟩

theorem editIndex_frame (h : Heap R) (l : Nat) (i : Int) (ps : List Str) (vs : List (PVal R)) :
    (h.editIndex l i ps vs).1.line = h.line ∧ (h.editIndex l i ps vs).1.nLine = h.nLine ∧
    (h.editIndex l i ps vs).1.nElem = h.nElem ∧
    ∀ k, ((h.editIndex l i ps vs).1.elem k).name = (h.elem k).name ∧
    ((h.editIndex l i ps vs).1.elem k).top = (h.elem k).top ∧
    ((h.editIndex l i ps vs).1.elem k).type = (h.elem k).type := by
  unfold Heap.editIndex
  split
  · exact ⟨rfl, rfl, rfl, fun _ => ⟨rfl, rfl, rfl⟩⟩
  · split
    · exact ⟨rfl, rfl, rfl, fun _ => ⟨rfl, rfl, rfl⟩⟩
    · rename_i it _
      have h1 := editItem_lines h (ps.zip vs) it
      exact ⟨h1.1, h1.2.1, h1.2.2, fun k => editItem_frame _ _ _ k⟩

theorem Heap.WF.step {h : Heap R} (w : h.WF) (op : Op R) : (h.step op).WF := by
  unfold Heap.step
  split_ifs with ht
  · cases op with
    | addElement l n t ps s => exact w.addElement ht n t ps s
    | addBeamline l n => exact w.addBeamline ht n
    | editName l n ps vs =>
      have f := editName_frame h l n ps vs
      exact w.frame f.1 f.2.1 f.2.2.1 (fun k => (f.2.2.2 k).1) (fun k => (f.2.2.2 k).2.1)
    | editIndex l i ps vs =>
      have f := editIndex_frame h l i ps vs
      exact w.frame f.1 f.2.1 f.2.2.1 (fun k => (f.2.2.2 k).1) (fun k => (f.2.2.2 k).2.1)
  · exact w

theorem run_wf (name : Option Str) (ops : List (Op R)) : (runOps name ops).WF := by
  unfold runOps
  have : ∀ (ops : List (Op R)) (h : Heap R), h.WF → (ops.foldl Heap.step h).WF := by
    intro ops
    induction ops with
    | nil => intro h w; exact w
    | cons o ops ih => intro h w; exact ih _ (w.step o)
  exact this ops _ (init_wf name)

/-! ## Nesting is finite, and every element is seen from the top -/

theorem Heap.WF.seq_some {h : Heap R} (w : h.WF) : ∀ (d : Nat) (s : List Item),
    (∀ k, Item.line k ∈ s → k < h.nLine ∧ h.nLine - k ≤ d) → ∃ es, flatSeq h d s = some es := by
  intro d
  induction d with
  | zero =>
    intro s
    induction s with
    | nil => intro _; exact ⟨[], rfl⟩
    | cons i s ih =>
      intro hs
      obtain ⟨es, hes⟩ := ih fun k hk => hs k (List.mem_cons_of_mem _ hk)
      cases i with
      | elem e => exact ⟨e :: es, by rw [flatSeq_elem, hes]; rfl⟩
      | line k => have := hs k List.mem_cons_self; omega
  | succ d ihd =>
    intro s
    induction s with
    | nil => intro _; exact ⟨[], rfl⟩
    | cons i s ih =>
      intro hs
      obtain ⟨es, hes⟩ := ih fun k hk => hs k (List.mem_cons_of_mem _ hk)
      cases i with
      | elem e => exact ⟨e :: es, by rw [flatSeq_elem, hes]; rfl⟩
      | line k =>
        have hk := hs k List.mem_cons_self
        obtain ⟨as, has⟩ := ihd (h.line k).seq (by
          intro j hj
          have := w.subs k hk.1 j hj
          omega)
        exact ⟨as ++ es, by rw [flatSeq_cons, flatItem_line, has, hes]; rfl⟩

theorem Heap.WF.elementsOf_some {h : Heap R} (w : h.WF) {l : Nat} (hl : l < h.nLine) :
    ∃ es, ∀ fuel, h.nLine ≤ fuel → h.elementsOf fuel l = some es := by
  obtain ⟨es, hes⟩ := w.seq_some h.nLine (h.line l).seq (by
    intro k hk
    have := w.subs l hl k hk
    omega)
  exact ⟨es, fun fuel hf => flatSeq_le h hf hes⟩

theorem Heap.WF.unfolds {h : Heap R} (w : h.WF) {l : Nat} (hl : l < h.nLine) :
    ∃ es, Unfolds h (h.line l).seq es := by
  obtain ⟨es, hes⟩ := w.elementsOf_some hl
  exact ⟨es, flatSeq_sound h _ _ _ (hes _ (Nat.le_refl _))⟩

theorem Heap.WF.line_sub_top {h : Heap R} (w : h.WF) {es : List Nat} (hu : Unfolds h (h.line 0).seq es) :
    ∀ (k : Nat), k < h.nLine → ∃ as, Unfolds h (h.line k).seq as ∧ ∀ a ∈ as, a ∈ es := by
  intro k
  induction k using Nat.strongRecOn with
  | _ k ih =>
    intro hk
    by_cases h0 : k = 0
    · subst h0; exact ⟨es, hu, fun a ha => ha⟩
    · obtain ⟨l, hl, hm⟩ := w.reach k hk (Nat.pos_of_ne_zero h0)
      obtain ⟨bs, h1, h2⟩ := ih l hl (by omega)
      obtain ⟨as, h3, h4⟩ := h1.mem_line hm
      exact ⟨as, h3, fun a ha => h2 a (h4 a ha)⟩

theorem Heap.WF.elem_in_top {h : Heap R} (w : h.WF) {es : List Nat} (hu : Unfolds h (h.line 0).seq es)
    {k e : Nat} (hk : k < h.nLine) (he : Item.elem e ∈ (h.line k).seq) : e ∈ es := by
  obtain ⟨as, h1, h2⟩ := w.line_sub_top hu k hk
  exact h2 e (h1.mem_elem he)

theorem Heap.WF.unfolds_lt {h : Heap R} (w : h.WF) {s : List Item} {es : List Nat} (hu : Unfolds h s es)
    (h1 : ∀ k, Item.line k ∈ s → k < h.nLine) (h2 : ∀ e, Item.elem e ∈ s → e < h.nElem) :
    ∀ e ∈ es, e < h.nElem := by
  induction hu with
  | nil => intro e he; simp at he
  | elem _ ih =>
    intro e he
    rcases List.mem_cons.mp he with he | he
    · exact h2 e (by simp [he])
    · exact ih (fun k hk => h1 k (List.mem_cons_of_mem _ hk)) (fun k hk => h2 k (List.mem_cons_of_mem _ hk)) e he
  | @line l s as bs _ _ iha ihb =>
    intro e he
    have hl := h1 l List.mem_cons_self
    rcases List.mem_append.mp he with he | he
    · exact iha (fun k hk => (w.subs l hl k hk).2) (w.elems l hl) e he
    · exact ihb (fun k hk => h1 k (List.mem_cons_of_mem _ hk)) (fun k hk => h2 k (List.mem_cons_of_mem _ hk)) e he

theorem Heap.WF.line_unfolds_lt {h : Heap R} (w : h.WF) {l : Nat} (hl : l < h.nLine) {es : List Nat}
    (hu : Unfolds h (h.line l).seq es) : ∀ e ∈ es, e < h.nElem :=
  w.unfolds_lt hu (fun k hk => (w.subs l hl k hk).2) (w.elems l hl)

end Verif.Lattice
