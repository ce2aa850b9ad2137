import Verif.Lattice.PropsBeamline

/-! # Calls append at the end (C22) -/

namespace Verif.Lattice

variable {R : Type}

theorem unfolds_transfer {h h' : Heap R} (l : Nat)
    (hsub : ∀ j, l < j → ∀ k, Item.line k ∈ (h.line j).seq → l < k)
    (hs : ∀ j, l < j → (h'.line j).seq = (h.line j).seq) {s : List Item} {es : List Nat} (hu : Unfolds h s es)
    (hk : ∀ k, Item.line k ∈ s → l < k) : Unfolds h' s es := by
  induction hu with
  | nil => exact .nil
  | elem _ ih => exact .elem (ih fun k h => hk k (List.mem_cons_of_mem _ h))
  | @line j s as bs _ _ iha ihb =>
    have hj := hk j List.mem_cons_self
    refine .line ?_ (ihb fun k h => hk k (List.mem_cons_of_mem _ h))
    rw [hs j hj]
    exact iha (hsub j hj)

/-- Sub-beamlines of well formed heaps, for numbers outside the heap too if those are empty. -/
theorem Heap.WF.sub_gt {h : Heap R} (w : h.WF) (hout : ∀ j, h.nLine ≤ j → (h.line j).seq = []) (l : Nat) :
    ∀ j, l < j → ∀ k, Item.line k ∈ (h.line j).seq → l < k := by
  intro j hj k hk
  by_cases hn : j < h.nLine
  · have := (w.subs j hn k hk).1
    omega
  · rw [hout j (by omega)] at hk
    simp at hk

/-- Numbers outside the heap stand for empty beamlines. -/
theorem out_step {h : Heap R} (w : h.WF) (ho : ∀ j, h.nLine ≤ j → (h.line j).seq = []) (op : Op R) :
    ∀ j, (h.step op).nLine ≤ j → ((h.step op).line j).seq = [] := by
  unfold Heap.step
  split_ifs with ht
  · cases op with
    | addElement l n t ps sub =>
      simp only
      unfold Heap.addElement
      cases hu : h.useElement l n t ps with
      | error err => simpa using ho
      | ok r =>
        obtain ⟨h1, e⟩ := r
        have u := used_of w ht hu
        intro j hj
        simp only at hj ⊢
        split_ifs at hj ⊢ with hsb
        · split at hj
          · change h1.nLine ≤ j at hj
            change (h1.line j).seq = []
            rw [u.seq]; exact ho j (by rw [u.nLine] at hj; exact hj)
          · change h1.nLine ≤ j at hj
            change (h1.line j).seq = []
            rw [u.seq]; exact ho j (by rw [u.nLine] at hj; exact hj)
          · rename_i k hk
            change h1.nLine ≤ j at hj
            rw [append_seq]
            have hkl : k < h.nLine := by
              have : Item.line k ∈ (h1.line l).seq := List.mem_of_getLast? hk
              rw [u.seq] at this
              exact (w.subs l ht k this).2
            rw [u.nLine] at hj
            rw [if_neg (by omega)]
            change (h1.line j).seq = []
            rw [u.seq]; exact ho j hj
        · change h1.nLine ≤ j at hj
          rw [u.nLine] at hj
          rw [append_seq, if_neg (by change l < h.nLine at ht; omega)]
          change (h1.line j).seq = []
          rw [u.seq]; exact ho j hj
    | addBeamline l n =>
      change l < h.nLine at ht
      intro j
      simp only
      unfold Heap.addBeamline Heap.useLine
      cases hd : dget (h.line l).lines n with
      | some k =>
        intro hj
        have hk := w.dictL l ht _ (mem_of_dget hd)
        change h.nLine ≤ j at hj
        simp only [Heap.append, Heap.setLine]
        simp only at hk
        rw [if_neg (by omega), if_neg (by omega)]
        exact ho j hj
      | none =>
        intro hj
        change h.nLine + 1 ≤ j at hj
        simp only [Heap.append, Heap.setLine]
        rw [if_neg (by omega), if_neg (by omega), if_neg (by omega), if_neg (by omega)]
        exact ho j (by omega)
    | editName l n ps vs =>
      intro j hj
      have f := editName_frame h l n ps vs
      simp only at hj ⊢
      rw [f.1]
      exact ho j (by rw [f.2.1] at hj; exact hj)
    | editIndex l i ps vs =>
      intro j hj
      have f := editIndex_frame h l i ps vs
      simp only at hj ⊢
      rw [f.1]
      exact ho j (by rw [f.2.1] at hj; exact hj)
  · exact ho

theorem run_out (name : Option Str) (ops : List (Op R)) :
    ∀ j, (runOps name ops).nLine ≤ j → ((runOps name ops).line j).seq = [] := by
  induction ops using List.reverseRecOn with
  | nil => intro j _; rfl
  | append_singleton ops op ih =>
    rw [run_snoc]
    exact out_step (run_wf name ops) ih op

/-- After every history: a successful `add_element` appends one element with that name to the
flattened beamline. -/
theorem elements_add (name : Option Str) (ops : List (Op R)) (l : Nat) (hl : l < (runOps name ops).nLine)
    (n t : Str) (ps : List (Str × PVal R)) (es : List Nat)
    (hu : Unfolds (runOps name ops) ((runOps name ops).line l).seq es) (h' : Heap R)
    (hok : (runOps name ops).addElement l n t ps false = (h', none)) :
    ∃ e, Unfolds h' (h'.line l).seq (es ++ [e]) ∧ (h'.elem e).name = n := by
  have w := run_wf name ops
  have ho := run_out name ops
  set h := runOps name ops
  cases hx : h.useElement l n t ps with
  | error err => unfold Heap.addElement at hok; rw [hx] at hok; simp at hok
  | ok r =>
    obtain ⟨h1, e⟩ := r
    have u := used_of w hl hx
    rw [addElement_eq hx] at hok
    simp only [Prod.mk.injEq, and_true] at hok
    have hseq : ∀ j, (h'.line j).seq = if j = l then (h.line l).seq ++ [.elem e] else (h.line j).seq := by
      intro j
      rw [← hok, append_seq]
      change (if j = l then (h1.line l).seq ++ [Item.elem e] else (h1.line j).seq) = _
      rw [u.seq, u.seq]
    refine ⟨e, ?_, ?_⟩
    · rw [hseq l, if_pos rfl]
      refine Unfolds.append ?_ (.elem .nil)
      exact unfolds_transfer l (w.sub_gt ho l) (fun j hj => by rw [hseq, if_neg (by omega)]) hu
        fun k hk => (w.subs l hl k hk).1
    · rw [← hok]
      simp only [Heap.append, Heap.setLine, Heap.setElem, if_true]
      exact u.ename

/-- A drift `z` is added at the end of the example. -/
example : ∃ h' e, (runOps (some "top".toList) exOps).addElement 0 "z".toList "drift".toList [] false = (h', none) ∧
    Unfolds h' (h'.line 0).seq ([0, 1, 2, 1, 0] ++ [e]) ∧ (h'.elem e).name = "z".toList := by
  have h0 : ((runOps (some "top".toList) exOps).addElement 0 "z".toList "drift".toList [] false).2 = none := by decide +kernel
  obtain ⟨e, h1, h2⟩ := elements_add (some "top".toList) exOps 0 (by decide +kernel) "z".toList "drift".toList [] [0, 1, 2, 1, 0]
    (flatSeq_sound _ 3 _ _ (by decide +kernel)) _ (Prod.ext rfl h0)
  exact ⟨_, e, Prod.ext rfl h0, h1, h2⟩

/-- After every history: `add_beamline` of a name that is new in this beamline leaves the
flattened beamline as it is, and of a known name appends the elements of that beamline. -/
theorem elements_add_line (name : Option Str) (ops : List (Op R)) (l : Nat) (hl : l < (runOps name ops).nLine)
    (n : Option Str) (es : List Nat) (hu : Unfolds (runOps name ops) ((runOps name ops).line l).seq es) :
    (dget ((runOps name ops).line l).lines n = none →
      Unfolds ((runOps name ops).addBeamline l n) (((runOps name ops).addBeamline l n).line l).seq es) ∧
    ∀ k ks, dget ((runOps name ops).line l).lines n = some k →
      Unfolds (runOps name ops) ((runOps name ops).line k).seq ks →
      Unfolds ((runOps name ops).addBeamline l n) (((runOps name ops).addBeamline l n).line l).seq (es ++ ks) := by
  have w := run_wf name ops
  have ho := run_out name ops
  set h := runOps name ops
  constructor
  · intro hd
    have hseq : ∀ j, ((h.addBeamline l n).line j).seq =
        if j = l then (h.line l).seq ++ [.line h.nLine] else (h.line j).seq := by
      intro j
      unfold Heap.addBeamline Heap.useLine
      rw [hd]
      simp only [Heap.append, Heap.setLine]
      have h1 : l ≠ h.nLine := by omega
      have h2 : h.nLine ≠ l := by omega
      by_cases hj : j = h.nLine
      · subst hj
        simp [h2, newLine, ho _ (Nat.le_refl _)]
      · by_cases hjl : j = l
        · subst hjl
          simp [hj]
        · simp [hj, hjl]
    rw [hseq l, if_pos rfl, ← List.append_nil es]
    refine Unfolds.append ?_ ?_
    · exact unfolds_transfer l (w.sub_gt ho l) (fun j hj => by rw [hseq, if_neg (by omega)]) hu
        fun k hk => (w.subs l hl k hk).1
    · refine Unfolds.line (as := []) ?_ .nil
      rw [hseq, if_neg (by omega), ho _ (Nat.le_refl _)]
      exact .nil
  · intro k ks hd hk
    have hkl := w.dictL l hl _ (mem_of_dget hd)
    simp only at hkl
    have hseq : ∀ j, ((h.addBeamline l n).line j).seq =
        if j = l then (h.line l).seq ++ [.line k] else (h.line j).seq := by
      intro j
      unfold Heap.addBeamline Heap.useLine
      rw [hd]
      simp only [Heap.append, Heap.setLine]
      by_cases hj : j = k
      · subst hj
        simp [show j ≠ l by omega]
      · simp only [if_neg hj]
        split_ifs <;> rfl
    rw [hseq l, if_pos rfl]
    refine Unfolds.append ?_ ?_
    · exact unfolds_transfer l (w.sub_gt ho l) (fun j hj => by rw [hseq, if_neg (by omega)]) hu
        fun k hk => (w.subs l hl k hk).1
    · rw [← List.append_nil ks]
      refine Unfolds.line ?_ .nil
      rw [hseq, if_neg (by omega)]
      exact unfolds_transfer l (w.sub_gt ho l) (fun j hj => by rw [hseq, if_neg (by omega)]) hk
        fun j hj => by have := (w.subs k hkl.2 j hj).1; omega

/-- Appending to beamline 0 of the nested example: the hypotheses hold. -/
example : 0 < (runOps (some "top".toList) exOps).nLine ∧
    Unfolds (runOps (some "top".toList) exOps) ((runOps (some "top".toList) exOps).line 0).seq [0, 1, 2, 1, 0] ∧
    ((runOps (some "top".toList) exOps).addElement 0 "z".toList "drift".toList [] false).2 = none ∧
    dget ((runOps (some "top".toList) exOps).line 0).lines (some "s".toList) = some 1 ∧
    dget ((runOps (some "top".toList) exOps).line 0).lines (some "u".toList) = none := by
  refine ⟨by decide +kernel, flatSeq_sound _ 3 _ _ (by decide +kernel), by decide +kernel, by decide +kernel,
    by decide +kernel⟩

end Verif.Lattice
