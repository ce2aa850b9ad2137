import Verif.Lattice.PropsBeamline
import Verif.Lattice.PropsGrow

/-!
# C158: what `edit_element` changes
-/

namespace Verif.Lattice

variable {R : Type}

/-- The last value that is given for a parameter, whatever its case. -/
def given (ps : List Str) (vs : List (PVal R)) (key : Str) : Option (PVal R) :=
  ((ps.zip vs).reverse.find? fun kv => lower kv.1 = lower key).map Prod.snd

theorem foldl_given (key : Str) : ∀ (pv : List (Str × PVal R)) (d : Params R),
    Params.getItem (pv.foldl (fun d kv => Params.setItem d kv.1 kv.2) d) key =
      ((pv.reverse.find? fun kv => lower kv.1 = lower key).map Prod.snd).or (Params.getItem d key)
  | [], d => by simp
  | kv :: pv, d => by
    rw [List.foldl_cons, foldl_given key pv, getItem_setItem, List.reverse_cons, List.find?_append]
    cases hf : pv.reverse.find? fun kv => lower kv.1 = lower key with
    | some x => simp
    | none =>
      by_cases hk : lower kv.1 = lower key
      · simp [hk]
      · simp [hk]

theorem editItems_elems (ps : List Str) (vs : List (PVal R)) (post : List Item) : ∀ (pre : List Nat) (h : Heap R), ∃ h',
    Heap.editItems (ps.zip vs) (pre.map Item.elem ++ post) h = Heap.editItems (ps.zip vs) post h' ∧ ∀ e key,
      Params.getItem (h'.elem e).params key = if e ∈ pre then (given ps vs key).or (Params.getItem (h.elem e).params key)
        else Params.getItem (h.elem e).params key
  | [], h => ⟨h, rfl, fun e key => by simp⟩
  | a :: pre, h => by
    obtain ⟨h', h1, h2⟩ := editItems_elems ps vs post pre (h.editItem (ps.zip vs) (.elem a)).1
    refine ⟨h', h1, fun e key => ?_⟩
    rw [h2]
    by_cases hea : e = a
    · subst hea
      have : Params.getItem ((h.editItem (ps.zip vs) (.elem e)).1.elem e).params key = (given ps vs key).or (Params.getItem (h.elem e).params key) := by
        simp only [Heap.editItem, Heap.setElem, if_true]
        exact foldl_given key _ _
      rw [this, if_pos (List.mem_cons_self ..)]
      by_cases hm : e ∈ pre
      · rw [if_pos hm]
        cases given ps vs key <;> simp
      · rw [if_neg hm]
    · have : (h.editItem (ps.zip vs) (.elem a)).1.elem e = h.elem e := by
        simp only [Heap.editItem, Heap.setElem, if_neg hea]
      rw [this]
      simp [hea]

theorem filter_items (h : Heap R) (name : Str) : ∀ s : List Item, (∀ k, .line k ∈ s → (h.line k).name ≠ some name) →
    ∃ pre : List Nat, (s.filter fun i => h.itemName i = some name) = pre.map Item.elem ∧ ∀ e, e ∈ pre ↔ .elem e ∈ s ∧ (h.elem e).name = name
  | [], _ => ⟨[], rfl, by simp⟩
  | .elem a :: s, hs => by
    obtain ⟨pre, h1, h2⟩ := filter_items h name s fun k hk => hs k (List.mem_cons_of_mem _ hk)
    by_cases ha : (h.elem a).name = name
    · refine ⟨a :: pre, ?_, fun e => ?_⟩
      · rw [List.filter_cons_of_pos (by simp [Heap.itemName, ha]), h1]
        rfl
      · simp only [List.mem_cons, Item.elem.injEq, h2]
        constructor
        · rintro (rfl | h3)
          · exact ⟨.inl rfl, ha⟩
          · exact ⟨.inr h3.1, h3.2⟩
        · rintro ⟨rfl | h3, h4⟩
          · exact .inl rfl
          · exact .inr ⟨h3, h4⟩
    · refine ⟨pre, ?_, fun e => ?_⟩
      · rw [List.filter_cons_of_neg (by simp [Heap.itemName, ha]), h1]
      · simp only [List.mem_cons, Item.elem.injEq, h2]
        constructor
        · rintro ⟨h3, h4⟩
          exact ⟨.inr h3, h4⟩
        · rintro ⟨rfl | h3, h4⟩
          · exact absurd h4 ha
          · exact ⟨h3, h4⟩
  | .line a :: s, hs => by
    obtain ⟨pre, h1, h2⟩ := filter_items h name s fun k hk => hs k (List.mem_cons_of_mem _ hk)
    refine ⟨pre, ?_, fun e => by simp [h2]⟩
    rw [List.filter_cons_of_neg (by rw [decide_eq_true_iff]; exact hs a (List.mem_cons_self ..)), h1]

/-- **C158.** A call of `edit_element` with a name that no sub-beamline of the sequence has: nothing is raised. The elements of the sequence with that name
have the new values, the last one for each parameter; everything else is as before: their other parameters, all other elements, also those of the same name
in sub-beamlines only. -/
theorem edit_name_partial (h : Heap R) (l : Nat) (name : Str) (ps : List Str) (vs : List (PVal R))
    (hl : ∀ k, .line k ∈ (h.line l).seq → (h.line k).name ≠ some name) :
    (h.editName l name ps vs).2 = none ∧ ∀ e key, Params.getItem ((h.editName l name ps vs).1.elem e).params key =
      if .elem e ∈ (h.line l).seq ∧ (h.elem e).name = name then (given ps vs key).or (Params.getItem (h.elem e).params key)
      else Params.getItem (h.elem e).params key := by
  obtain ⟨pre, h1, h2⟩ := filter_items h name _ hl
  obtain ⟨h', h3, h4⟩ := editItems_elems ps vs [] pre h
  rw [List.append_nil] at h3
  unfold Heap.editName
  rw [h1, h3]
  refine ⟨rfl, fun e key => ?_⟩
  rw [show (Heap.editItems (ps.zip vs) [] h').1 = h' from rfl, h4]
  by_cases he : e ∈ pre
  · rw [if_pos he, if_pos ((h2 e).1 he)]
  · rw [if_neg he, if_neg fun hh => he ((h2 e).2 hh)]

/-- **C158 fails for names of sub-beamlines.** The call raises AttributeError, and the elements before the sub-beamline have been changed already. -/
theorem edit_subline_fails (h : Heap R) (l : Nat) (name : Str) (ps : List Str) (vs : List (PVal R)) (hpv : ps.zip vs ≠ []) (pre post : List Item) (k : Nat)
    (hs : (h.line l).seq = pre ++ .line k :: post) (hk : (h.line k).name = some name) (hp : ∀ j, .line j ∈ pre → (h.line j).name ≠ some name) :
    (h.editName l name ps vs).2 = some .attributeError ∧ ∀ e key, Params.getItem ((h.editName l name ps vs).1.elem e).params key =
      if .elem e ∈ pre ∧ (h.elem e).name = name then (given ps vs key).or (Params.getItem (h.elem e).params key)
      else Params.getItem (h.elem e).params key := by
  obtain ⟨es, h1, h2⟩ := filter_items h name pre hp
  obtain ⟨h', h3, h4⟩ := editItems_elems ps vs (.line k :: post.filter fun i => h.itemName i = some name) es h
  unfold Heap.editName
  rw [hs, List.filter_append, List.filter_cons_of_pos (by rw [decide_eq_true_iff]; exact hk), h1, h3, Heap.editItems, Heap.editItem, if_neg hpv]
  refine ⟨rfl, fun e key => ?_⟩
  simp only
  rw [h4]
  by_cases he : e ∈ es
  · rw [if_pos he, if_pos ((h2 e).1 he)]
  · rw [if_neg he, if_neg fun hh => he ((h2 e).2 hh)]

/-- **C158 fails for elements of sub-beamlines.** Whatever is given, an element that is used in sub-beamlines only keeps all its parameters, although it is
one of the elements of the whole beamline. -/
theorem edit_nested_fails (h : Heap R) (l : Nat) (name : Str) (ps : List Str) (vs : List (PVal R)) (e : Nat) (he : .elem e ∉ (h.line l).seq) :
    ((h.editName l name ps vs).1.elem e) = h.elem e := by
  have key : ∀ (is : List Item) (h : Heap R), .elem e ∉ is → (Heap.editItems (ps.zip vs) is h).1.elem e = h.elem e := by
    intro is
    induction is with
    | nil => intro h _; rfl
    | cons i is ih =>
      intro h hm
      rw [List.mem_cons, not_or] at hm
      unfold Heap.editItems
      cases i with
      | line k =>
        rw [Heap.editItem]
        by_cases hpv : ps.zip vs = []
        · rw [if_pos hpv]
          exact ih h hm.2
        · rw [if_neg hpv]
      | elem a =>
        rw [Heap.editItem]
        simp only
        rw [ih _ hm.2]
        simp only [Heap.setElem]
        rw [if_neg fun hh => hm.1 (by rw [hh])]
  exact key _ h fun hm => he (List.mem_of_mem_filter hm)

/-- **C158, positions.** With a position, exactly the element at that position is changed; negative positions count from the end. -/
theorem edit_index_partial (h : Heap R) (l : Nat) (i : Int) (ps : List Str) (vs : List (PVal R)) (n : Nat) (a : Nat) (hn : (h.line l).seq[n]? = some (.elem a))
    (hi : i = n ∨ i = (n : Int) - (h.line l).seq.length) :
    (h.editIndex l i ps vs).2 = none ∧ ∀ e key, Params.getItem ((h.editIndex l i ps vs).1.elem e).params key =
      if e = a then (given ps vs key).or (Params.getItem (h.elem e).params key) else Params.getItem (h.elem e).params key := by
  have hlt : n < (h.line l).seq.length := (List.getElem?_eq_some_iff.1 hn).1
  have hx : pyIndex (h.line l).seq i = some (.elem a) := by
    unfold pyIndex
    rcases hi with rfl | rfl
    · rw [if_pos (by omega), Int.toNat_natCast, hn]
    · rw [if_neg (by omega), if_pos (by omega), show ((h.line l).seq.length + ((n : Int) - (h.line l).seq.length)).toNat = n by omega, hn]
  unfold Heap.editIndex
  by_cases hpv : ps.zip vs = []
  · rw [if_pos hpv]
    refine ⟨rfl, fun e key => ?_⟩
    unfold given
    rw [hpv]
    simp
  · rw [if_neg hpv, hx]
    simp only [Heap.editItem]
    refine ⟨trivial, fun e key => ?_⟩
    simp only [Heap.setElem]
    by_cases he : e = a
    · subst he
      rw [if_pos rfl, if_pos rfl]
      exact foldl_given key _ _
    · rw [if_neg he, if_neg he]

/-- **C158, other positions.** A position outside of the sequence raises IndexError, the position of a sub-beamline AttributeError, and nothing is changed. -/
theorem edit_index_fails (h : Heap R) (l : Nat) (i : Int) (ps : List Str) (vs : List (PVal R)) (hpv : ps.zip vs ≠ []) :
    ((i < -(h.line l).seq.length ∨ ((h.line l).seq.length : Int) ≤ i) → h.editIndex l i ps vs = (h, some .indexError)) ∧
    ∀ n k : Nat, (h.line l).seq[n]? = some (.line k) → (i = n ∨ i = (n : Int) - (h.line l).seq.length) → h.editIndex l i ps vs = (h, some .attributeError) := by
  unfold Heap.editIndex
  rw [if_neg hpv]
  constructor
  · intro hi
    have : pyIndex (h.line l).seq i = none := by
      unfold pyIndex
      rcases hi with hi | hi
      · rw [if_neg (by omega), if_neg (by omega)]
      · rw [if_pos (by omega), List.getElem?_eq_none (by omega)]
    rw [this]
  · intro n k hn hi
    have hlt : n < (h.line l).seq.length := (List.getElem?_eq_some_iff.1 hn).1
    have hx : pyIndex (h.line l).seq i = some (.line k) := by
      unfold pyIndex
      rcases hi with rfl | rfl
      · rw [if_pos (by omega), Int.toNat_natCast, hn]
      · rw [if_neg (by omega), if_pos (by omega), show ((h.line l).seq.length + ((n : Int) - (h.line l).seq.length)).toNat = n by omega, hn]
    rw [hx]
    simp only [Heap.editItem]
    rw [if_neg hpv]

/-- A beamline with a quadrupole, a drift and a sub-beamline that has another quadrupole. -/
def exEdit : Heap Int := runOps (some "b".toList)
  [.addElement 0 "q".toList "quad".toList [("K1".toList, .num 3)] false, .addElement 0 "d".toList "drift".toList [("L".toList, .num 2)] false,
   .addBeamline 0 (some "s".toList), .addElement 1 "q2".toList "quad".toList [("K1".toList, .num 7)] false]

example : (exEdit.line 0).seq = [.elem 0, .elem 1, .line 1] ∧ (exEdit.line 1).name = some "s".toList ∧ (exEdit.elem 2).name = "q2".toList := by decide +kernel

/-- The quadrupole gets a new strength and a length; the one in the sub-beamline does not. -/
example : Params.getItem ((exEdit.editName 0 "q".toList ["k1".toList, "L".toList, "K1".toList] [.num 5, .num 6, .num 8]).1.elem 0).params "k1".toList =
      some (.num 8) ∧
    (exEdit.editName 0 "q2".toList ["k1".toList] [.num 5]).1.elem 2 = exEdit.elem 2 ∧
    (exEdit.editName 0 "s".toList ["k1".toList] [.num 5]).2 = some .attributeError := by
  refine ⟨?_, ?_, ?_⟩
  · rw [(edit_name_partial exEdit 0 "q".toList _ _ ?_).2, if_pos (by decide +kernel)]
    · decide +kernel
    · intro k hk
      have : k = 1 := by
        have hs : (exEdit.line 0).seq = [.elem 0, .elem 1, .line 1] := by decide +kernel
        rw [hs] at hk
        simpa using hk
      subst this
      decide +kernel
  · exact edit_nested_fails exEdit 0 _ _ _ 2 (by decide +kernel)
  · refine (edit_subline_fails exEdit 0 "s".toList _ _ (by simp) [.elem 0, .elem 1] [] 1 (by decide +kernel) (by decide +kernel) ?_).1
    simp

end Verif.Lattice
