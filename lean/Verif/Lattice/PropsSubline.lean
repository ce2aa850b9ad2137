import Verif.Lattice.PropsBeamline
import Verif.Lattice.PropsGrow

/-! # One definition per name, with `subline=True` (C25) -/

namespace Verif.Lattice

variable {R : Type}

/-- The beamline object holds one element per name. -/
def OneDef (h : Heap R) (l : Nat) : Prop :=
  ∀ e1 e2, Item.elem e1 ∈ (h.line l).seq → Item.elem e2 ∈ (h.line l).seq →
    (h.elem e1).name = (h.elem e2).name → e1 = e2

/-- Where `add_element` on object `p` puts the element: at the end of `p`, or, with
`subline=True`, at the end of the sub-beamline that is the last entry of `p`. -/
def Receives (h : Heap R) (p : Nat) (subline : Bool) (k : Nat) : Prop :=
  (subline = false ∧ k = p) ∨ (subline = true ∧ ∃ s, (h.line p).seq = s ++ [.line k])

/-- One successful call of `add_element`. -/
theorem addElement_receives {h h' : Heap R} (w : h.WF) {p k : Nat} (hp : p < h.nLine) {n t : Str}
    {ps : List (Str × PVal R)} {sub : Bool} (hok : h.addElement p n t ps sub = (h', none))
    (hr : Receives h p sub k) :
    ∃ e, (∀ j, (h'.line j).seq = if j = k then (h.line k).seq ++ [.elem e] else (h.line j).seq) ∧
      (h'.elem e).name = n ∧ (∀ i < h.nElem, (h'.elem i).name = (h.elem i).name) ∧
      dget (h'.line p).elements n = some e ∧
      ((dget (h.line p).elements n = some e ∧ e < h.nElem) ∨ (dget (h.line p).elements n = none ∧ e = h.nElem)) := by
  unfold Heap.addElement at hok
  cases hu : h.useElement p n t ps with
  | error err => rw [hu] at hok; cases hok
  | ok r =>
    obtain ⟨g, e⟩ := r
    have u : Used h p n t ps g e := used_of w hp hu
    rw [hu] at hok
    simp only at hok
    have hname : ∀ j, ((g.setElem e { g.elem e with top := (g.line p).top }).elem j).name = (g.elem j).name := by
      intro j
      simp only [Heap.setElem]
      split_ifs with hj
      · rw [hj]
      · rfl
    have hh : h' = (g.setElem e { g.elem e with top := (g.line p).top }).append k (.elem e) := by
      rcases hr with ⟨rfl, rfl⟩ | ⟨rfl, s, hs⟩
      · simp only [Bool.false_eq_true, if_false, Prod.mk.injEq, and_true] at hok
        exact hok.symm
      · have hl : ((g.setElem e { g.elem e with top := (g.line p).top }).line p).seq.getLast? = some (.line k) := by
          change (g.line p).seq.getLast? = _
          rw [u.seq, hs]
          simp
        simp only [if_true] at hok
        rw [hl] at hok
        simp only [Prod.mk.injEq, and_true] at hok
        exact hok.symm
    refine ⟨e, ?_, ?_, ?_, ?_, ?_⟩
    · intro j
      rw [hh, append_seq]
      change (if j = k then (g.line k).seq ++ [Item.elem e] else (g.line j).seq) = _
      rw [u.seq, u.seq]
    · rw [hh]; exact (hname e).trans u.ename
    · intro i hi
      rw [hh]
      exact (hname i).trans (by rw [u.old i hi])
    · rw [hh, append_elements]; exact u.found
    · rcases u.first with ⟨f1, f2⟩ | ⟨f1, f2, _⟩
      · exact .inl ⟨f1, f2 ▸ u.lt⟩
      · exact .inr ⟨f1, f2⟩

/-- Exact condition, for every state that calls can lead to and every further call of `add_element`,
also with `subline=True`: the object that receives the element still holds one element per name
exactly if it did before and all uses of the name in it are of the element that the object called
has under this name. No other object changes. -/
theorem one_definition_iff (name : Option Str) (ops : List (Op R)) (p k : Nat) (hp : p < (runOps name ops).nLine)
    (n t : Str) (ps : List (Str × PVal R)) (sub : Bool) (h' : Heap R)
    (hok : (runOps name ops).addElement p n t ps sub = (h', none)) (hr : Receives (runOps name ops) p sub k) :
    (OneDef h' k ↔ OneDef (runOps name ops) k ∧ ∀ e, Item.elem e ∈ ((runOps name ops).line k).seq →
      ((runOps name ops).elem e).name = n → dget ((runOps name ops).line p).elements n = some e) ∧
    ∀ j < (runOps name ops).nLine, j ≠ k → (OneDef h' j ↔ OneDef (runOps name ops) j) := by
  have w := run_wf (R := R) name ops
  set h := runOps name ops
  obtain ⟨e, h1, h2, h3, h4, h5⟩ := addElement_receives w hp hok hr
  have hk : k < h.nLine := by
    rcases hr with ⟨_, rfl⟩ | ⟨_, s, hs⟩
    · exact hp
    · exact (w.subs p hp k (by rw [hs]; simp)).2
  constructor
  · constructor
    · intro o
      refine ⟨?_, ?_⟩
      · intro e1 e2 m1 m2 hn
        refine o e1 e2 ?_ ?_ ?_
        · rw [h1, if_pos rfl]; exact List.mem_append_left _ m1
        · rw [h1, if_pos rfl]; exact List.mem_append_left _ m2
        · rw [h3 e1 (w.elems k hk e1 m1), h3 e2 (w.elems k hk e2 m2), hn]
      · intro e1 m1 hn
        have hlt := w.elems k hk e1 m1
        have : e1 = e := o e1 e (by rw [h1, if_pos rfl]; exact List.mem_append_left _ m1)
          (by rw [h1, if_pos rfl]; simp) (by rw [h3 e1 hlt, h2, hn])
        subst this
        rcases h5 with ⟨h5, _⟩ | ⟨_, h5⟩
        · exact h5
        · omega
    · rintro ⟨o, c⟩ e1 e2 m1 m2 hn
      rw [h1, if_pos rfl] at m1 m2
      have key : ∀ e1, Item.elem e1 ∈ (h.line k).seq → (h'.elem e1).name = n → e1 = e := by
        intro e1 m1 hn
        have hlt := w.elems k hk e1 m1
        have hc := c e1 m1 (by rw [← h3 e1 hlt, hn])
        rcases h5 with ⟨h5, _⟩ | ⟨h5, _⟩
        · rw [h5] at hc; exact (Option.some.inj hc).symm
        · rw [h5] at hc; cases hc
      simp only [List.mem_append, List.mem_singleton, Item.elem.injEq] at m1 m2
      rcases m1 with m1 | rfl <;> rcases m2 with m2 | rfl
      · exact o e1 e2 m1 m2 (by rw [← h3 e1 (w.elems k hk e1 m1), ← h3 e2 (w.elems k hk e2 m2), hn])
      · exact key e1 m1 (by rw [hn, h2])
      · exact (key e2 m2 (by rw [← hn, h2])).symm
      · rfl
  · intro j hj hjk
    unfold OneDef
    rw [h1, if_neg hjk]
    constructor
    · intro o e1 e2 m1 m2 hn
      exact o e1 e2 m1 m2 (by rw [h3 e1 (w.elems j hj e1 m1), h3 e2 (w.elems j hj e2 m2), hn])
    · intro o e1 e2 m1 m2 hn
      exact o e1 e2 m1 m2 (by rw [← h3 e1 (w.elems j hj e1 m1), ← h3 e2 (w.elems j hj e2 m2), hn])

/-- Every use in an object is of the element that this object, or an object that contains it, has
under the name: holds after all histories. -/
def Registered (h : Heap R) : Prop :=
  ∀ k < h.nLine, ∀ e, Item.elem e ∈ (h.line k).seq → ∃ p < h.nLine, (p = k ∨ Item.line k ∈ (h.line p).seq) ∧
    dget (h.line p).elements (h.elem e).name = some e

theorem registered_grow {h h' : Heap R} (r : Registered h) (w : h.WF) (hn : h.nLine ≤ h'.nLine)
    (hname : ∀ e < h.nElem, (h'.elem e).name = (h.elem e).name)
    (hdict : ∀ j < h.nLine, ∀ n e, dget (h.line j).elements n = some e → dget (h'.line j).elements n = some e)
    (hline : ∀ j < h.nLine, ∀ k, Item.line k ∈ (h.line j).seq → Item.line k ∈ (h'.line j).seq)
    (hnew : ∀ k < h'.nLine, ∀ e, Item.elem e ∈ (h'.line k).seq → (k < h.nLine ∧ Item.elem e ∈ (h.line k).seq) ∨
      ∃ p < h'.nLine, (p = k ∨ Item.line k ∈ (h'.line p).seq) ∧ dget (h'.line p).elements (h'.elem e).name = some e) :
    Registered h' := by
  intro k hk e he
  rcases hnew k hk e he with ⟨h1, h2⟩ | h2
  · obtain ⟨p, p1, p2, p3⟩ := r k h1 e h2
    refine ⟨p, by omega, p2.imp id (hline p p1 k), ?_⟩
    rw [hname e (w.elems k h1 e h2)]
    exact hdict p p1 _ _ p3
  · exact h2

theorem registered_addElement {h : Heap R} (r : Registered h) (w : h.WF) {p : Nat} (hp : p < h.nLine) (n t : Str)
    (ps : List (Str × PVal R)) (sub : Bool) : Registered (h.addElement p n t ps sub).1 := by
  unfold Heap.addElement
  cases hu : h.useElement p n t ps with
  | error err => exact r
  | ok x =>
    obtain ⟨g, e⟩ := x
    have u : Used h p n t ps g e := used_of w hp hu
    have hname : ∀ j, ((g.setElem e { g.elem e with top := (g.line p).top }).elem j).name = (g.elem j).name := by
      intro j
      simp only [Heap.setElem]
      split_ifs with hj
      · rw [hj]
      · rfl
    have hd : ∀ j n' e', dget (h.line j).elements n' = some e' → dget (g.line j).elements n' = some e' := by
      intro j n' e' hj
      by_cases hc : j = p ∧ n' = n
      · obtain ⟨rfl, rfl⟩ := hc
        rcases u.first with ⟨_, f⟩ | ⟨f, _⟩
        · rw [f]; exact hj
        · rw [f] at hj; cases hj
      · rw [u.other j n' hc]; exact hj
    have base : Registered (g.setElem e { g.elem e with top := (g.line p).top }) := by
      refine registered_grow r w u.nLine.ge ?_ (fun j _ => hd j) ?_ ?_
      · intro j hj; exact (hname j).trans (by rw [u.old j hj])
      · intro j _ k hk
        change Item.line k ∈ (g.line j).seq
        rw [u.seq]; exact hk
      · intro k hk e' he'
        change k < g.nLine at hk
        change Item.elem e' ∈ (g.line k).seq at he'
        rw [u.seq] at he'
        exact .inl ⟨u.nLine ▸ hk, he'⟩
    have add : ∀ k, (p = k ∨ Item.line k ∈ (h.line p).seq) →
        Registered ((g.setElem e { g.elem e with top := (g.line p).top }).append k (.elem e)) := by
      intro k hk j hj e' he'
      change j < g.nLine at hj
      rw [append_seq] at he'
      have old : Item.elem e' ∈ (g.line j).seq →
          ∃ p_1 < ((g.setElem e { g.elem e with top := (g.line p).top }).append k (.elem e)).nLine,
            (p_1 = j ∨ Item.line j ∈ (((g.setElem e { g.elem e with top := (g.line p).top }).append k (.elem e)).line p_1).seq) ∧
            dget (((g.setElem e { g.elem e with top := (g.line p).top }).append k (.elem e)).line p_1).elements
              (((g.setElem e { g.elem e with top := (g.line p).top }).append k (.elem e)).elem e').name = some e' := by
        intro m
        obtain ⟨q, q1, q2, q3⟩ := base j hj e' m
        refine ⟨q, q1, q2.imp id fun m => ?_, ?_⟩
        · rw [append_seq]
          split_ifs with hq
          · subst hq; exact List.mem_append_left _ m
          · exact m
        · rw [append_elements]; exact q3
      split_ifs at he' with hjk
      · subst hjk
        rcases List.mem_append.mp he' with m | m
        · exact old m
        · simp only [List.mem_singleton, Item.elem.injEq] at m
          subst m
          refine ⟨p, by change p < g.nLine; rw [u.nLine]; exact hp, ?_, ?_⟩
          · refine hk.imp id fun m => ?_
            rw [append_seq]
            split_ifs with hq
            · subst hq
              refine List.mem_append_left _ ?_
              change Item.line p ∈ (g.line p).seq
              rw [u.seq]; exact m
            · change Item.line j ∈ (g.line p).seq
              rw [u.seq]; exact m
          · rw [append_elements]
            change dget (g.line p).elements ((g.setElem e' { g.elem e' with top := (g.line p).top }).elem e').name = _
            rw [hname, u.ename]
            exact u.found
      · exact old he'
    simp only
    cases sub with
    | false => simp only [Bool.false_eq_true, if_false]; exact add p (.inl rfl)
    | true =>
      simp only [if_true]
      split
      · exact base
      · exact base
      · rename_i k hk
        have hm : Item.line k ∈ (g.line p).seq := List.mem_of_getLast? hk
        rw [u.seq] at hm
        exact add k (.inr hm)

theorem registered_addBeamline {h : Heap R} (r : Registered h) (w : h.WF) {l : Nat} (hl : l < h.nLine)
    (name : Option Str) : Registered (h.addBeamline l name) := by
  unfold Heap.addBeamline Heap.useLine
  cases hd : dget (h.line l).lines name with
  | some m =>
    simp only
    have s : ∀ j, (((h.append l (.line m)).setLine m
        { (h.append l (.line m)).line m with top := ((h.append l (.line m)).line l).top }).line j).seq =
        if j = l then (h.line l).seq ++ [.line m] else (h.line j).seq := by
      intro j
      simp only [Heap.setLine]
      split_ifs with h1 h2 h2
      · subst h1 h2; exact (append_seq _ _ _ _).trans (if_pos rfl)
      · subst h1; exact (append_seq _ _ _ _).trans (if_neg h2)
      · subst h2; exact (append_seq _ _ _ _).trans (if_pos rfl)
      · exact (append_seq _ _ _ _).trans (if_neg h2)
    have el : ∀ j, (((h.append l (.line m)).setLine m
        { (h.append l (.line m)).line m with top := ((h.append l (.line m)).line l).top }).line j).elements =
        (h.line j).elements := by
      intro j
      simp only [Heap.setLine]
      split_ifs with h1
      · subst h1; exact append_elements _ _ _ _
      · exact append_elements _ _ _ _
    refine registered_grow r w le_rfl (fun _ _ => rfl) ?_ ?_ ?_
    · intro j _ n e he; rw [el]; exact he
    · intro j _ k hk
      rw [s]
      split_ifs with h1
      · subst h1; exact List.mem_append_left _ hk
      · exact hk
    · intro k hk e he
      change k < h.nLine at hk
      rw [s] at he
      refine .inl ⟨hk, ?_⟩
      split_ifs at he with h1
      · subst h1; simpa using he
      · exact he
  | none =>
    simp only
    have hne : h.nLine ≠ l := by omega
    have hne' : l ≠ h.nLine := by omega
    refine registered_grow r w (Nat.le_succ _) (fun _ _ => rfl) ?_ ?_ ?_
    · intro j hj n e he
      simp only [Heap.append, Heap.setLine, newLine, if_neg hne']
      split_ifs with h1 h2
      · omega
      · subst h2; exact he
      · exact he
    · intro j hj k hk
      simp only [Heap.append, Heap.setLine, newLine, if_neg hne']
      split_ifs with h1 h2
      · omega
      · subst h2; exact List.mem_append_left _ hk
      · exact hk
    · intro k hk e he
      change k < h.nLine + 1 at hk
      simp only [Heap.append, Heap.setLine, newLine, if_neg hne, if_neg hne'] at he
      left
      split_ifs at he with h1 h2
      · simp at he
      · subst h2; exact ⟨hl, by simpa using he⟩
      · exact ⟨by omega, he⟩

/-- After any history, also with `subline=True`: every use in an object is of the element that the
object, or an object that has it as an entry, holds under the name. -/
theorem uses_registered (name : Option Str) (ops : List (Op R)) : Registered (runOps name ops) := by
  induction ops using List.reverseRecOn with
  | nil => intro k _ e he; simp [runOps, Heap.init, newLine] at he
  | append_singleton ops op ih =>
    rw [run_snoc]
    have w := run_wf (R := R) name ops
    have frame : ∀ h' : Heap R, h'.line = (runOps name ops).line → h'.nLine = (runOps name ops).nLine →
        (∀ k, (h'.elem k).name = ((runOps name ops).elem k).name) → Registered h' := by
      intro h' f1 f2 f3 k hk e he
      rw [f1] at he ⊢
      rw [f2] at hk ⊢
      rw [f3]
      exact ih k hk e he
    unfold Heap.step
    split_ifs with ht
    · cases op with
      | addElement l n t ps s => exact registered_addElement ih w ht n t ps s
      | addBeamline l n => exact registered_addBeamline ih w ht n
      | editName l n ps vs =>
        have f := editName_frame (runOps name ops) l n ps vs
        exact frame _ f.1 f.2.1 (fun k => (f.2.2.2 k).1)
      | editIndex l i ps vs =>
        have f := editIndex_frame (runOps name ops) l i ps vs
        exact frame _ f.1 f.2.1 (fun k => (f.2.2.2 k).1)
    · exact ih

/-- The call that breaks it: object 1 has its own `q`, object 0 puts another one into it. -/
example : ∃ h' : Heap Int, (runOps none (exSubline.take 2)).addElement 0 "q".toList "drift".toList [("L".toList, .num 7)] true = (h', none) ∧
    Receives (runOps none (exSubline.take 2)) 0 true 1 ∧ ¬ OneDef h' 1 := by
  have hr : Receives (runOps none (exSubline.take 2)) 0 true 1 := .inr ⟨rfl, [], by decide +kernel⟩
  have he : ((runOps none (exSubline.take 2)).addElement 0 "q".toList "drift".toList [("L".toList, .num 7)] true).2 = none := by
    decide +kernel
  obtain ⟨h', hok⟩ : ∃ h', (runOps none (exSubline.take 2)).addElement 0 "q".toList "drift".toList [("L".toList, .num 7)] true =
      (h', none) := ⟨_, Prod.ext rfl he⟩
  refine ⟨h', hok, hr, ?_⟩
  rw [(one_definition_iff none (exSubline.take 2) 0 1 (by decide +kernel) _ _ _ _ _ hok hr).1]
  rintro ⟨_, h⟩
  have := h 0 (by decide +kernel) (by decide +kernel)
  revert this
  decide +kernel

/-- A call that does not: object 0 puts its own `q` into object 1 twice. -/
example : ∃ h' : Heap Int, (runOps none [.addBeamline 0 none, .addElement 0 "q".toList "quad".toList [] true]).addElement 0
      "q".toList "drift".toList [] true = (h', none) ∧ OneDef h' 1 := by
  have hr : Receives (runOps (R := Int) none [.addBeamline 0 none, .addElement 0 "q".toList "quad".toList [] true]) 0 true 1 :=
    .inr ⟨rfl, [], by decide +kernel⟩
  have he : ((runOps (R := Int) none [.addBeamline 0 none, .addElement 0 "q".toList "quad".toList [] true]).addElement 0
      "q".toList "drift".toList [] true).2 = none := by decide +kernel
  obtain ⟨h', hok⟩ : ∃ h', (runOps (R := Int) none [.addBeamline 0 none, .addElement 0 "q".toList "quad".toList [] true]).addElement 0
      "q".toList "drift".toList [] true = (h', none) := ⟨_, Prod.ext rfl he⟩
  refine ⟨h', hok, ?_⟩
  have hs : ((runOps (R := Int) none [.addBeamline 0 none, .addElement 0 "q".toList "quad".toList [] true]).line 1).seq = [.elem 0] := by
    decide +kernel
  rw [(one_definition_iff none _ 0 1 (by decide +kernel) _ _ _ _ _ hok hr).1]
  refine ⟨?_, ?_⟩
  · intro e1 e2 m1 m2 _
    rw [hs] at m1 m2
    simp only [List.mem_singleton, Item.elem.injEq] at m1 m2
    rw [m1, m2]
  · intro e m _
    rw [hs] at m
    simp only [List.mem_singleton, Item.elem.injEq] at m
    subst m
    decide +kernel

end Verif.Lattice
