import Verif.Import.Spec
import Verif.Lattice.LemmasFlat

/-! # What `generate_beamline` does -/

namespace Verif.Import

open Verif.Lattice

variable {R : Type}

/-- Items that the object of the line called `n` receives because of one item. -/
def recv1 (J : Json R) (n : Str) (i : Int) : List Int :=
  match J.line? i with
  | some L => if L.name = n then (if 0 ≤ i then L.items else L.items.reverse) else []
  | none => []

/-- Items that the object of the line called `n` receives when its parent receives `T`. -/
def recv (J : Json R) (T : List Int) (n : Str) : List Int := T.flatMap (recv1 J n)

/-- The element of an item. -/
def elemOf (J : Json R) (i : Int) : Option (JElem R) :=
  match J.line? i with
  | some _ => none
  | none => J.elem? i

/-- The first element called `n` in a list of items. -/
def firstDef (J : Json R) (T : List Int) (n : Str) : Option (JElem R) :=
  (T.filterMap (elemOf J)).find? fun e => e.name = n

/-- Entry `it` of beamline object `k` belongs to item `i`. -/
def Entry (J : Json R) (h : Heap R) (k : Nat) (i : Int) (it : Item) : Prop :=
  match J.line? i with
  | some L => ∃ j, it = .line j ∧ dget (h.line k).lines (some L.name) = some j
  | none => ∃ je e, J.elem? i = some je ∧ it = .elem e ∧ dget (h.line k).elements je.name = some e

/-- Invariant: object `k` has received the items `log k` and will receive the items `p k`. -/
structure Inv (J : Json R) (h : Heap R) (log p : Nat → List Int) : Prop where
  wf : h.WF
  entries : ∀ k < h.nLine, List.Forall₂ (Entry J h k) (log k) (h.line k).seq
  names : ∀ k < h.nLine, ∀ n j, dget (h.line k).lines n = some j → ∃ m, n = some m
  edges : ∀ k < h.nLine, ∀ n j, dget (h.line k).lines (some n) = some j → log j ++ p j = recv J (log k) n
  inj : ∀ k < h.nLine, ∀ k' < h.nLine, ∀ n n' j, dget (h.line k).lines n = some j →
    dget (h.line k').lines n' = some j → k = k' ∧ n = n'
  elems : ∀ k < h.nLine, ∀ n e, dget (h.line k).elements n = some e →
    ∃ je, firstDef J (log k) n = some je ∧ IsElem J je (h.elem e)
  fresh : ∀ k, h.nLine ≤ k → log k = [] ∧ p k = []

theorem recv_append (J : Json R) (S T : List Int) (n : Str) : recv J (S ++ T) n = recv J S n ++ recv J T n := by
  simp [recv]

theorem recv_nil_of {J : Json R} {T : List Int} {n : Str} (h : ∀ i ∈ T, ∀ L, J.line? i = some L → L.name ≠ n) :
    recv J T n = [] := by
  unfold recv
  rw [List.flatMap_eq_nil_iff]
  intro i hi
  unfold recv1
  split
  · rename_i L hL
    rw [if_neg (h i hi L hL)]
  · rfl

theorem forall2_mem {α β : Type} {r : α → β → Prop} {as : List α} {bs : List β} (h : List.Forall₂ r as bs) {a : α} (ha : a ∈ as) :
    ∃ b ∈ bs, r a b := by
  induction h with
  | nil => cases ha
  | cons hr _ ih =>
    rcases List.mem_cons.mp ha with rfl | ha
    · exact ⟨_, by simp, hr⟩
    · obtain ⟨b, hb, h2⟩ := ih ha
      exact ⟨b, by simp [hb], h2⟩

/-- A line whose name is not among the sub-beamlines has not been used. -/
theorem Inv.recv_none {J : Json R} {h : Heap R} {log p : Nat → List Int} (w : Inv J h log p) {k : Nat} (hk : k < h.nLine)
    {n : Str} (hd : dget (h.line k).lines (some n) = none) : recv J (log k) n = [] := by
  apply recv_nil_of
  intro i hi L hL hn
  obtain ⟨it, _, he⟩ := forall2_mem (w.entries k hk) hi
  unfold Entry at he
  rw [hL] at he
  obtain ⟨j, _, hj⟩ := he
  rw [hn, hd] at hj
  cases hj

theorem Inv.first_none {J : Json R} {h : Heap R} {log p : Nat → List Int} (w : Inv J h log p) {k : Nat} (hk : k < h.nLine)
    {n : Str} (hd : dget (h.line k).elements n = none) : firstDef J (log k) n = none := by
  unfold firstDef
  rw [List.find?_eq_none]
  intro e he
  rw [List.mem_filterMap] at he
  obtain ⟨i, hi, he⟩ := he
  obtain ⟨it, _, hen⟩ := forall2_mem (w.entries k hk) hi
  unfold elemOf at he
  unfold Entry at hen
  split at he
  · cases he
  · rename_i hl
    rw [hl] at hen
    obtain ⟨je, x, h1, _, h3⟩ := hen
    rw [h1] at he
    cases he
    intro hc
    rw [of_decide_eq_true hc, hd] at h3
    cases h3

/-- What `add_beamline` does to the dictionaries and sequences. -/
theorem addBeamline_facts {h : Heap R} (w : h.WF) {l : Nat} (hl : l < h.nLine) (n : Option Str) :
    ∃ k, let h' := h.addBeamline l n
      dget (h'.line l).lines n = some k ∧ l < k ∧ k < h'.nLine ∧ h'.elem = h.elem ∧ h'.nElem = h.nElem ∧
      (∀ j m, ¬ (j = l ∧ m = n) → j < h.nLine → dget (h'.line j).lines m = dget (h.line j).lines m) ∧
      (∀ j, j < h.nLine → (h'.line j).elements = (h.line j).elements) ∧
      (∀ j, j < h.nLine → (h'.line j).seq = if j = l then (h.line l).seq ++ [.line k] else (h.line j).seq) ∧
      (dget (h.line l).lines n = some k ∧ h'.nLine = h.nLine ∨
        dget (h.line l).lines n = none ∧ k = h.nLine ∧ h'.nLine = h.nLine + 1 ∧
          (h'.line k).lines = [] ∧ (h'.line k).elements = [] ∧ (h'.line k).seq = []) := by
  cases hd : dget (h.line l).lines n with
  | some k =>
    have hk := w.dictL l hl _ (mem_of_dget hd)
    refine ⟨k, ?_⟩
    have e : h.addBeamline l n = h.append l (.line k) := by
      unfold Heap.addBeamline Heap.useLine
      rw [hd]
      simp only
      have w2 := w.append hl (i := .line k) hk
      have : { (h.append l (.line k)).line k with top := ((h.append l (.line k)).line l).top } =
          (h.append l (.line k)).line k := by
        rw [w2.top l hl, ← w2.top k hk.2]
      rw [this, setLine_same]
    rw [e]
    refine ⟨by rw [append_lines]; exact hd, hk.1, hk.2, rfl, rfl, fun j m _ _ => by rw [append_lines],
      fun j _ => append_elements _ _ _ _, fun j _ => append_seq _ _ _ _, .inl ⟨rfl, rfl⟩⟩
  | none =>
    refine ⟨h.nLine, ?_⟩
    have hne : h.nLine ≠ l := by omega
    have hne' : l ≠ h.nLine := by omega
    unfold Heap.addBeamline Heap.useLine
    rw [hd]
    simp only [Heap.append, Heap.setLine, newLine, if_pos, if_neg hne, if_neg hne']
    refine ⟨by rw [dget_dset, if_pos rfl], hl, Nat.lt_succ_self _, trivial, trivial, ?_, ?_, ?_, .inr ⟨trivial, trivial, trivial, trivial, trivial, trivial⟩⟩
    · intro j m hjm hj
      rw [if_neg (by omega)]
      by_cases h1 : j = l
      · subst h1
        rw [if_pos rfl, dget_dset, if_neg fun h => hjm ⟨rfl, h⟩]
      · rw [if_neg h1, if_neg (by omega), if_neg (by omega)]
    · intro j hj
      rw [if_neg (by omega)]
      by_cases h1 : j = l
      · subst h1
        rw [if_pos rfl]
      · rw [if_neg h1, if_neg (by omega), if_neg (by omega)]
    · intro j hj
      rw [if_neg (by omega)]
      by_cases h1 : j = l
      · subst h1
        rw [if_pos rfl, if_pos rfl]
      · rw [if_neg h1, if_neg (by omega), if_neg (by omega), if_neg h1]

/-- Change one value of a function. -/
def upd (f : Nat → List Int) (k : Nat) (v : List Int) : Nat → List Int := fun j => if j = k then v else f j

theorem upd_same (f : Nat → List Int) (k : Nat) (v : List Int) : upd f k v k = v := if_pos rfl

theorem upd_ne (f : Nat → List Int) {k j : Nat} (v : List Int) (h : j ≠ k) : upd f k v j = f j := if_neg h

theorem Entry.mono {J : Json R} {h h' : Heap R} {k : Nat} {i : Int} {it : Item} (he : Entry J h k i it)
    (hl : ∀ n j, dget (h.line k).lines n = some j → dget (h'.line k).lines n = some j)
    (hx : ∀ n j, dget (h.line k).elements n = some j → dget (h'.line k).elements n = some j) : Entry J h' k i it := by
  unfold Entry at he ⊢
  split
  · rename_i L hL
    rw [hL] at he
    obtain ⟨j, h1, h2⟩ := he
    exact ⟨j, h1, hl _ _ h2⟩
  · rename_i hL
    rw [hL] at he
    obtain ⟨je, e, h1, h2, h3⟩ := he
    exact ⟨je, e, h1, h2, hx _ _ h3⟩

theorem forall2_snoc {α β : Type} {r : α → β → Prop} {as : List α} {bs : List β} {a : α} {b : β} (h : List.Forall₂ r as bs) (hr : r a b) :
    List.Forall₂ r (as ++ [a]) (bs ++ [b]) := by
  induction h with
  | nil => exact .cons hr .nil
  | cons h1 _ ih => exact .cons h1 ih

theorem firstDef_snoc (J : Json R) (T : List Int) (i : Int) (n : Str) :
    firstDef J (T ++ [i]) n = (firstDef J T n).or (((elemOf J i).toList).find? fun e => e.name = n) := by
  unfold firstDef
  rw [List.filterMap_append, List.find?_append]
  cases h : elemOf J i <;> simp [h]

/-- Step of the loop for a line. -/
theorem inv_line {J : Json R} {h : Heap R} {log p : Nat → List Int} (w : Inv J h log p) {l : Nat} (hl : l < h.nLine)
    {i : Int} {is : List Int} (hp : p l = i :: is) (hz : ∀ k, l < k → p k = []) {L : JLine} (hL : J.line? i = some L) :
    ∃ k, dget ((h.addBeamline l (some L.name)).line l).lines (some L.name) = some k ∧ l < k ∧ k < (h.addBeamline l (some L.name)).nLine ∧
      Inv J (h.addBeamline l (some L.name)) (upd log l (log l ++ [i]))
        (upd (upd p l is) k (if 0 ≤ i then L.items else L.items.reverse)) := by
  obtain ⟨k, f1, f2, f3, f4, f5, f6, f7, f8, f9⟩ := addBeamline_facts w.wf hl (some L.name)
  refine ⟨k, f1, f2, f3, ?_⟩
  have hn : h.nLine ≤ (h.addBeamline l (some L.name)).nLine := by rcases f9 with ⟨_, h1⟩ | ⟨_, _, h1, _⟩ <;> omega
  have hkn : ∀ j, j < (h.addBeamline l (some L.name)).nLine → j < h.nLine ∨
      j = k ∧ ((h.addBeamline l (some L.name)).line k).lines = [] ∧ ((h.addBeamline l (some L.name)).line k).elements = [] ∧
        ((h.addBeamline l (some L.name)).line k).seq = [] ∧ log k = [] ∧ p k = [] := by
    intro j hj
    rcases f9 with ⟨_, h1⟩ | ⟨_, h0, h1, h2⟩
    · left; omega
    · by_cases h3 : j < h.nLine
      · exact .inl h3
      · right
        have := w.fresh k (by omega)
        exact ⟨by omega, h2.1, h2.2.1, h2.2.2, this⟩
  have hlines : ∀ j, j < h.nLine → ∀ n m, dget (h.line j).lines n = some m → dget ((h.addBeamline l (some L.name)).line j).lines n = some m := by
    intro j hj n m hm
    by_cases hc : j = l ∧ n = some L.name
    · obtain ⟨rfl, rfl⟩ := hc
      rcases f9 with ⟨h1, _⟩ | ⟨h1, _⟩
      · rw [h1] at hm; cases hm; exact f1
      · rw [h1] at hm; cases hm
    · rw [f6 j n hc hj]; exact hm
  -- edges of the new heap
  have hedge : ∀ j, j < (h.addBeamline l (some L.name)).nLine → ∀ n m, dget ((h.addBeamline l (some L.name)).line j).lines n = some m →
      j < h.nLine ∧ (j = l ∧ n = some L.name ∧ m = k ∨ ¬ (j = l ∧ n = some L.name) ∧ dget (h.line j).lines n = some m) := by
    intro j hj n m hm
    rcases hkn j hj with h1 | ⟨rfl, h1, _⟩
    · refine ⟨h1, ?_⟩
      by_cases hc : j = l ∧ n = some L.name
      · obtain ⟨rfl, rfl⟩ := hc
        rw [f1] at hm; cases hm
        exact .inl ⟨rfl, rfl, rfl⟩
      · rw [f6 j n hc h1] at hm
        exact .inr ⟨hc, hm⟩
    · rw [h1] at hm; cases hm
  -- no other edge leads to `k`
  have hother : ∀ j, j < h.nLine → ∀ n, ¬ (j = l ∧ n = some L.name) → dget (h.line j).lines n ≠ some k := by
    intro j hj n hc hm
    rcases f9 with ⟨h1, _⟩ | ⟨_, h1, _⟩
    · exact hc (w.inj j hj l hl _ _ _ hm h1)
    · have := w.wf.dictL j hj _ (mem_of_dget hm)
      simp only at this
      omega
  refine ⟨w.wf.addBeamline hl _, ?_, ?_, ?_, ?_, ?_, ?_⟩
  · intro j hj
    rcases hkn j hj with h1 | ⟨rfl, _, _, h3, h4, _⟩
    · have h2 := (w.entries j h1).imp fun a b hab => hab.mono (h' := h.addBeamline l (some L.name)) (hlines j h1)
        (fun n m hm => by rw [f7 j h1]; exact hm)
      rw [f8 j h1]
      by_cases hc : j = l
      · subst hc
        rw [if_pos rfl, upd_same]
        refine forall2_snoc h2 ?_
        unfold Entry
        rw [hL]
        exact ⟨k, rfl, f1⟩
      · rw [if_neg hc, upd_ne _ _ hc]
        exact h2
    · rw [h3, upd_ne _ _ (by omega), h4]
      exact .nil
  · intro j hj n m hm
    obtain ⟨h1, ⟨_, h2, _⟩ | ⟨_, h2⟩⟩ := hedge j hj n m hm
    · exact ⟨_, h2⟩
    · exact w.names j h1 n m h2
  · intro j hj n m hm
    obtain ⟨h1, ⟨rfl, h2, rfl⟩ | ⟨hc, h2⟩⟩ := hedge j hj _ m hm
    · cases h2
      rw [upd_same, upd_same, upd_ne _ _ (by omega), recv_append]
      have hold : recv J (log j) L.name = log m := by
        rcases f9 with ⟨h1, _⟩ | ⟨h1, h2, _⟩
        · have := w.edges j hl _ _ h1
          rw [hz m f2, List.append_nil] at this
          exact this.symm
        · rw [w.recv_none hl h1, (w.fresh m (by omega)).1]
      rw [hold]
      congr 1
      simp [recv, recv1, hL]
    · have hmk : m ≠ k := by
        rintro rfl
        exact hother j h1 _ hc h2
      rw [upd_ne _ _ hmk]
      have hlt := w.wf.dictL j h1 _ (mem_of_dget h2)
      simp only at hlt
      have hml : upd log l (log l ++ [i]) m ++ upd p l is m = log m ++ p m := by
        by_cases hml : m = l
        · subst hml
          rw [upd_same, upd_same, hp]
          simp
        · rw [upd_ne _ _ hml, upd_ne _ _ hml]
      rw [hml, w.edges j h1 _ _ h2]
      by_cases hj : j = l
      · subst hj
        rw [upd_same, recv_append]
        have : recv J [i] n = [] := by
          apply recv_nil_of
          intro i' hi' L' hL' hn'
          rw [List.mem_singleton] at hi'
          subst hi'
          rw [hL] at hL'
          cases hL'
          exact hc ⟨rfl, by rw [hn']⟩
        rw [this, List.append_nil]
      · rw [upd_ne _ _ hj]
  · intro j hj j' hj' n n' m hm hm'
    obtain ⟨h1, ⟨rfl, rfl, rfl⟩ | ⟨hc, h2⟩⟩ := hedge j hj _ m hm
    · obtain ⟨h1', ⟨rfl, rfl, _⟩ | ⟨hc', h2'⟩⟩ := hedge j' hj' _ _ hm'
      · exact ⟨rfl, rfl⟩
      · exact absurd h2' (hother j' h1' _ hc')
    · obtain ⟨h1', ⟨rfl, rfl, rfl⟩ | ⟨hc', h2'⟩⟩ := hedge j' hj' _ _ hm'
      · exact absurd h2 (hother j h1 _ hc)
      · exact w.inj j h1 j' h1' _ _ _ h2 h2'
  · intro j hj n e he
    rcases hkn j hj with h1 | ⟨rfl, _, h3, _⟩
    · rw [f7 j h1] at he
      obtain ⟨je, h2, h3⟩ := w.elems j h1 n e he
      refine ⟨je, ?_, by rw [f4]; exact h3⟩
      by_cases hc : j = l
      · subst hc
        rw [upd_same, firstDef_snoc, h2]
        rfl
      · rw [upd_ne _ _ hc]; exact h2
    · rw [h3] at he; cases he
  · intro j hj
    have := w.fresh j (by omega)
    rw [upd_ne _ _ (by omega), upd_ne _ _ (by omega), upd_ne _ _ (by omega)]
    exact this

/-- Step of the loop for an element. -/
theorem replaceVal_eq (c : Dict Str (PVal R)) (v : PVal R) : replaceVal c v = meant c v := by
  cases v with
  | num x => rfl
  | str s =>
    simp only [replaceVal, meant, dget]
    cases List.find? (fun p => decide (p.1 = s)) c <;> rfl

theorem inv_elem {J : Json R} {h h' : Heap R} {log p : Nat → List Int} (w : Inv J h log p) {l : Nat} (hl : l < h.nLine)
    {i : Int} {is : List Int} (hp : p l = i :: is) (hL : J.line? i = none) (hr : addElem J i l h = .ok h') :
    h'.nLine = h.nLine ∧ Inv J h' (upd log l (log l ++ [i])) (upd p l is) := by
  unfold addElem at hr
  cases hje : J.elem? i with
  | none => rw [hje] at hr; cases hr
  | some je =>
    rw [hje] at hr
    simp only at hr
    cases hrp : replaceRpn J.cache je.params with
    | error e => rw [hrp] at hr; cases hr
    | ok ps =>
      rw [hrp] at hr
      simp only at hr
      have hps : ps = je.params.map fun kv => (kv.1, meant (J.cache.getD []) kv.2) := by
        unfold replaceRpn at hrp
        split at hrp
        · split_ifs at hrp with h1
          cases hrp
          rw [h1]; rfl
        · rename_i c hc
          cases hrp
          rw [hc]
          simp only [replaceVal_eq, Option.getD_some]
      cases hu : h.useElement l je.name je.type ps with
      | error e =>
        unfold Heap.addElement at hr
        rw [hu] at hr
        cases hr
      | ok r =>
        rw [addElement_eq hu] at hr
        simp only [Except.ok.injEq] at hr
        obtain ⟨h1, e⟩ := r
        have u : Used h l je.name je.type ps h1 e := used_of w.wf hl hu
        simp only at hr
        have hline : ∀ k, (h'.line k).lines = (h.line k).lines := by
          intro k; rw [← hr, append_lines]; exact u.lines k
        have helems : ∀ k, (h'.line k).elements = (h1.line k).elements := by
          intro k; rw [← hr, append_elements]; rfl
        have hseq : ∀ k, (h'.line k).seq = if k = l then (h.line l).seq ++ [.elem e] else (h.line k).seq := by
          intro k
          rw [← hr, append_seq]
          change (if k = l then (h1.line l).seq ++ _ else (h1.line k).seq) = _
          rw [u.seq, u.seq]
        have hn : h'.nLine = h.nLine := by rw [← hr]; exact u.nLine
        have helem : ∀ k x, IsElem J x (h1.elem k) → IsElem J x (h'.elem k) := by
          intro k x hx
          rw [← hr]
          change IsElem J x (if k = e then _ else h1.elem k)
          split_ifs with hk
          · subst hk; exact hx
          · exact hx
        have hmono : ∀ k n m, k < h.nLine → dget (h.line k).elements n = some m → dget (h1.line k).elements n = some m := by
          intro k n m hk hm
          by_cases hc : k = l ∧ n = je.name
          · obtain ⟨rfl, rfl⟩ := hc
            rcases u.first with ⟨_, h2⟩ | ⟨h2, _⟩
            · rw [h2]; exact hm
            · rw [h2] at hm; cases hm
          · rw [u.other k n hc]; exact hm
        refine ⟨hn, ?_⟩
        have hwf : h'.WF := by
          have := w.wf.addElement hl je.name je.type ps false
          rw [addElement_eq hu] at this
          rw [← hr]; exact this
        refine ⟨hwf, ?_, ?_, ?_, ?_, ?_, ?_⟩
        · intro k hk
          rw [hn] at hk
          have h2 := (w.entries k hk).imp fun a b hab => hab.mono (h' := h') (fun n m hm => by rw [hline]; exact hm)
            (fun n m hm => by rw [helems]; exact hmono k n m hk hm)
          rw [hseq]
          by_cases hc : k = l
          · subst hc
            rw [if_pos rfl, upd_same]
            refine forall2_snoc h2 ?_
            unfold Entry
            rw [hL]
            exact ⟨je, e, hje, rfl, by rw [helems]; exact u.found⟩
          · rw [if_neg hc, upd_ne _ _ hc]
            exact h2
        · intro k hk n j hj
          rw [hline] at hj
          exact w.names k (hn ▸ hk) n j hj
        · intro k hk n j hj
          rw [hline] at hj
          rw [hn] at hk
          have h2 : upd log l (log l ++ [i]) j ++ upd p l is j = log j ++ p j := by
            by_cases hjl : j = l
            · subst hjl
              rw [upd_same, upd_same, hp]; simp
            · rw [upd_ne _ _ hjl, upd_ne _ _ hjl]
          rw [h2, w.edges k hk n j hj]
          by_cases hc : k = l
          · subst hc
            rw [upd_same, recv_append]
            have : recv J [i] n = [] := by simp [recv, recv1, hL]
            rw [this, List.append_nil]
          · rw [upd_ne _ _ hc]
        · intro k hk k' hk' n n' j hj hj'
          rw [hline] at hj hj'
          exact w.inj k (hn ▸ hk) k' (hn ▸ hk') n n' j hj hj'
        · intro k hk n x hx
          rw [hn] at hk
          rw [helems] at hx
          by_cases hc : k = l ∧ n = je.name
          · obtain ⟨rfl, rfl⟩ := hc
            rw [u.found] at hx
            cases hx
            rw [upd_same, firstDef_snoc]
            rcases u.first with ⟨h2, h3⟩ | ⟨h2, h3, h4, h5⟩
            · obtain ⟨x, h4, h5⟩ := w.elems k hl _ _ h2
              rw [h4]
              exact ⟨x, rfl, helem _ _ (by rw [h3]; exact h5)⟩
            · rw [w.first_none hl h2]
              refine ⟨je, by simp [elemOf, hL, hje], helem _ _ ?_⟩
              rw [h5]
              exact ⟨rfl, rfl, fun k => by rw [← hps]; exact getItem_initParams _ _⟩
          · rw [u.other k n hc] at hx
            obtain ⟨x', h4, h5⟩ := w.elems k hk _ _ hx
            have hlt := (w.wf.dictE k hk _ (mem_of_dget hx)).1
            refine ⟨x', ?_, helem _ _ (by rw [u.old _ hlt]; exact h5)⟩
            by_cases hk' : k = l
            · subst hk'
              rw [upd_same, firstDef_snoc, h4]; rfl
            · rw [upd_ne _ _ hk']; exact h4
        · intro k hk
          rw [hn] at hk
          have := w.fresh k hk
          rw [upd_ne _ _ (by omega), upd_ne _ _ (by omega)]
          exact this

/-- What a call does: everything that object `l` should receive is received. -/
def Keeps (J : Json R) (g : List Int → Nat → Heap R → Except PyErr (Heap R)) : Prop :=
  ∀ is l h h' log p, Inv J h log p → l < h.nLine → p l = is → (∀ k, l < k → p k = []) → g is l h = .ok h' →
    h.nLine ≤ h'.nLine ∧ ∃ log', Inv J h' log' (upd p l []) ∧ log' l = log l ++ is ∧ (∀ k < l, log' k = log k)

theorem upd_self (f : Nat → List Int) (k : Nat) : upd f k (f k) = f := by
  funext j; unfold upd; split_ifs with h
  · rw [h]
  · rfl

theorem genWith_keeps (J : Json R) {sub : List Int → Nat → Heap R → Except PyErr (Heap R)} (hs : Keeps J sub) : Keeps J (genWith J sub) := by
  intro is
  induction is with
  | nil =>
    intro l h h' log p w hl hp _ hr
    cases hr
    refine ⟨Nat.le_refl _, log, ?_, by simp, fun _ _ => rfl⟩
    rw [← hp, upd_self]
    exact w
  | cons i is ih =>
    intro l h h' log p w hl hp hz hr
    unfold genWith at hr
    cases hL : J.line? i with
    | some L =>
      rw [hL] at hr
      simp only at hr
      obtain ⟨k, f1, f2, f3, w1⟩ := inv_line w hl hp hz hL
      have hmono : h.nLine ≤ (h.addBeamline l (some L.name)).nLine := by
        obtain ⟨_, _, _, _, _, _, _, _, _, f9⟩ := addBeamline_facts w.wf hl (some L.name)
        rcases f9 with ⟨_, h1⟩ | ⟨_, _, h1, _⟩ <;> omega
      generalize h.addBeamline l (some L.name) = h1 at hr f1 f3 w1 hmono
      rw [f1] at hr
      simp only at hr
      cases hg : sub (if 0 ≤ i then L.items else L.items.reverse) k h1 with
      | error e => rw [hg] at hr; cases hr
      | ok h2 =>
        rw [hg] at hr
        simp only at hr
        obtain ⟨hn2, log2, w2, h21, h22⟩ := hs _ k h1 h2 _ _ w1 f3 (upd_same _ _ _) (fun j hj => by
          rw [upd_ne _ _ (by omega), upd_ne _ _ (by omega)]; exact hz j (by omega)) hg
        have hpp : upd (upd (upd p l is) k (if 0 ≤ i then L.items else L.items.reverse)) k [] = upd p l is := by
          funext j
          unfold upd
          split_ifs with h1 h2
          · omega
          · exact (hz j (by omega)).symm
          · rfl
          · rfl
        rw [hpp] at w2
        obtain ⟨hn3, log3, w3, h31, h32⟩ := ih l h2 h' log2 (upd p l is) w2 (by omega) (upd_same _ _ _) (fun j hj => by
          rw [upd_ne _ _ (by omega)]; exact hz j hj) hr
        refine ⟨by omega, log3, ?_, ?_, ?_⟩
        · have : upd (upd p l is) l [] = upd p l [] := by funext j; unfold upd; split_ifs <;> rfl
          rw [← this]; exact w3
        · rw [h31, h22 l f2, upd_same]; simp
        · intro j hj
          rw [h32 j hj, h22 j (by omega), upd_ne _ _ (by omega)]
    | none =>
      rw [hL] at hr
      simp only at hr
      cases hg : addElem J i l h with
      | error e => rw [hg] at hr; cases hr
      | ok h2 =>
        rw [hg] at hr
        simp only at hr
        obtain ⟨hn, w2⟩ := inv_elem w hl hp hL hg
        obtain ⟨hn3, log3, w3, h31, h32⟩ := ih l h2 h' _ (upd p l is) w2 (by omega) (upd_same _ _ _) (fun j hj => by
          rw [upd_ne _ _ (by omega)]; exact hz j hj) hr
        refine ⟨by omega, log3, ?_, ?_, ?_⟩
        · have : upd (upd p l is) l [] = upd p l [] := by funext j; unfold upd; split_ifs <;> rfl
          rw [← this]; exact w3
        · rw [h31, upd_same]; simp
        · intro j hj
          rw [h32 j hj, upd_ne _ _ (by omega)]

theorem generate_keeps (J : Json R) (d : Nat) : Keeps J (generate J d) := by
  induction d with
  | zero =>
    refine genWith_keeps J ?_
    intro is l h h' log p _ _ _ _ hr
    cases hr
  | succ d ih => exact genWith_keeps J ih

theorem inv_init (J : Json R) (name : Str) (items : List Int) :
    Inv J (Heap.init (some name)) (fun _ => []) (upd (fun _ => []) 0 items) := by
  refine ⟨init_wf _, ?_, ?_, ?_, ?_, ?_, ?_⟩
  · intro k _; exact .nil
  · intro k _ n j hj; cases hj
  · intro k _ n j hj; cases hj
  · intro k _ k' _ n n' j hj; cases hj
  · intro k _ n e he; cases he
  · intro k hk
    change 1 ≤ k at hk
    exact ⟨rfl, upd_ne _ _ (by omega)⟩

/-- The elements made from the items `is` of an object that receives `T`. -/
inductive Makes (J : Json R) : List Int → List Int → List (JElem R) → Prop
  | nil {T} : Makes J T [] []
  | elem {T i is e e' es} : J.line? i = none → J.elem? i = some e → firstDef J T e.name = some e' → Makes J T is es →
      Makes J T (i :: is) (e' :: es)
  | line {T i is L as bs} : J.line? i = some L → Makes J (recv J T L.name) (recv J T L.name) as → Makes J T is bs →
      Makes J T (i :: is) (as ++ bs)

theorem makes_of_inv {J : Json R} {h : Heap R} {log : Nat → List Int} (w : Inv J h log fun _ => []) :
    ∀ {s ids}, Unfolds h s ids → ∀ k < h.nLine, ∀ is, List.Forall₂ (Entry J h k) is s →
      ∃ es, Makes J (log k) is es ∧ List.Forall₂ (IsElem J) es (ids.map h.elem) := by
  intro s ids hu
  induction hu with
  | nil =>
    intro k _ is hf
    cases hf
    exact ⟨[], .nil, .nil⟩
  | @elem e s es _ ih =>
    intro k hk is hf
    cases hf with
    | @cons i _ is _ he hf =>
      obtain ⟨es', h1, h2⟩ := ih k hk is hf
      unfold Entry at he
      split at he
      · obtain ⟨j, hj, _⟩ := he; cases hj
      · rename_i hL
        obtain ⟨je, e0, h3, h4, h5⟩ := he
        cases h4
        obtain ⟨je', h6, h7⟩ := w.elems k hk _ _ h5
        exact ⟨je' :: es', .elem hL h3 h6 h1, .cons h7 h2⟩
  | @line l s as bs _ _ ih1 ih2 =>
    intro k hk is hf
    cases hf with
    | @cons i _ is _ he hf =>
      obtain ⟨es', h1, h2⟩ := ih2 k hk is hf
      unfold Entry at he
      split at he
      · rename_i L hL
        obtain ⟨j, hj, h3⟩ := he
        cases hj
        have hlt := (w.wf.dictL k hk _ (mem_of_dget h3)).2
        obtain ⟨es, h4, h5⟩ := ih1 l hlt (log l) (w.entries l hlt)
        have h6 := w.edges k hk _ _ h3
        simp only [List.append_nil] at h6
        rw [h6] at h4
        refine ⟨es ++ es', .line hL h4 h1, ?_⟩
        rw [List.map_append]
        exact List.rel_append h5 h2
      · obtain ⟨_, _, _, hj, _⟩ := he; cases hj

/-- What the import makes, for every document. -/
theorem import_exact {J : Json R} {d : Nat} {name : Str} {h : Heap R} (hr : parseJson J d name = .ok h) {i : Int} {L : JLine}
    (hL : J.lineDict.find? (fun kv => kv.2.name = name) = some (i, L)) :
    ∃ es, Makes J L.items L.items es ∧ HasElements J h es := by
  unfold parseJson at hr
  rw [hL] at hr
  simp only at hr
  obtain ⟨_, log, w, h1, _⟩ := generate_keeps J d L.items 0 _ h (fun _ => []) (upd (fun _ => []) 0 L.items)
    (inv_init J L.name L.items) Nat.one_pos (upd_same _ _ _) (fun k hk => upd_ne _ _ (by omega)) hr
  have hp : upd (upd (fun _ => []) 0 L.items) 0 [] = fun _ => [] := by funext j; unfold upd; split_ifs <;> rfl
  rw [hp] at w
  obtain ⟨ids, hu⟩ := w.wf.unfolds w.wf.pos
  obtain ⟨es, h2, h3⟩ := makes_of_inv w hu 0 w.wf.pos (log 0) (w.entries 0 w.wf.pos)
  rw [h1] at h2
  exact ⟨es, h2, ids, hu, h3⟩

end Verif.Import
