import Verif.Import.Props

/-! # Property C38: which lattices are imported, and the exceptions of the others -/

namespace Verif.Import

open Verif.Lattice

variable {R : Type}

/-- The document has a cache of variables, and no parameter has one of the names that Python refuses. -/
def Usable (J : Json R) : Prop := J.cache.isSome ∧ ∀ i e, J.elem? i = some e → Plain e

/-- The item is the number of a line or of an element. -/
def Exists (J : Json R) (i : Int) : Prop := (∃ L, J.line? i = some L) ∨ ∃ e, J.elem? i = some e

/-- What the results of the recursive call say about its items. -/
def Tells (sub : List Int → Nat → Heap R → Except PyErr (Heap R)) (P : List Int → Prop) (E : PyErr → List Int → Prop) : Prop :=
  ∀ is l h, h.WF → l < h.nLine → match sub is l h with
    | .ok h' => P is ∧ h'.WF ∧ h.nLine ≤ h'.nLine
    | .error e => E e is

theorem genWith_tells {J : Json R} (hu : Usable J) {sub : List Int → Nat → Heap R → Except PyErr (Heap R)} {P : List Int → Prop}
    {E : PyErr → List Int → Prop} (hs : Tells sub P E) :
    Tells (genWith J sub)
      (fun is => ∀ i ∈ is, (J.line? i = none ∧ ∃ e, J.elem? i = some e) ∨ ∃ L, J.line? i = some L ∧ P (if 0 ≤ i then L.items else L.items.reverse))
      (fun e is => ∃ i ∈ is, (J.line? i = none ∧ J.elem? i = none ∧ e = .keyError) ∨
        ∃ L, J.line? i = some L ∧ E e (if 0 ≤ i then L.items else L.items.reverse)) := by
  intro is
  induction is with
  | nil =>
    intro l h w _
    exact ⟨by simp, w, Nat.le_refl _⟩
  | cons i is ih =>
    intro l h w hl
    unfold genWith
    cases hL : J.line? i with
    | none =>
      simp only
      cases he : J.elem? i with
      | none =>
        have : addElem J i l h = .error .keyError := by unfold addElem; rw [he]
        rw [this]
        exact ⟨i, by simp, .inl ⟨hL, he, rfl⟩⟩
      | some e =>
        obtain ⟨h', h4, h5, h6⟩ := addElem_ok hu.1 he (hu.2 i e he) w hl
        rw [h4]
        have key := ih l h' h5 (by omega)
        cases hg : genWith J sub is l h' with
        | ok h2 =>
          rw [hg] at key
          simp only [hg] at key ⊢
          refine ⟨?_, key.2.1, by omega⟩
          intro j hj
          rcases List.mem_cons.1 hj with rfl | hj
          · exact .inl ⟨hL, e, he⟩
          · exact key.1 j hj
        | error e2 =>
          rw [hg] at key
          simp only [hg] at key ⊢
          obtain ⟨j, hj, hk⟩ := key
          exact ⟨j, by simp [hj], hk⟩
    | some L =>
      simp only
      obtain ⟨k, f1, f2, f3, _, _, _, _, _, f9⟩ := addBeamline_facts w hl (some L.name)
      have hmono : h.nLine ≤ (h.addBeamline l (some L.name)).nLine := by
        rcases f9 with ⟨_, h1⟩ | ⟨_, _, h1, _⟩ <;> omega
      rw [f1]
      simp only
      have key := hs (if 0 ≤ i then L.items else L.items.reverse) k _ (w.addBeamline hl (some L.name)) f3
      cases hg : sub (if 0 ≤ i then L.items else L.items.reverse) k (h.addBeamline l (some L.name)) with
      | error e =>
        rw [hg] at key
        exact ⟨i, by simp, .inr ⟨L, hL, key⟩⟩
      | ok h2 =>
        rw [hg] at key
        simp only at key ⊢
        have key2 := ih l h2 key.2.1 (by omega)
        cases hg2 : genWith J sub is l h2 with
        | ok h3 =>
          rw [hg2] at key2
          simp only at key2 ⊢
          refine ⟨?_, key2.2.1, by omega⟩
          intro j hj
          rcases List.mem_cons.1 hj with rfl | hj
          · exact .inr ⟨L, hL, key.1⟩
          · exact key2.1 j hj
        | error e2 =>
          rw [hg2] at key2
          simp only at key2 ⊢
          obtain ⟨j, hj, hk⟩ := key2
          exact ⟨j, by simp [hj], hk⟩

/-- An item that leads to an unknown number, through lines. -/
inductive Dangles (J : Json R) : Int → Prop
  | here {i} : J.line? i = none → J.elem? i = none → Dangles J i
  | sub {i j L} : J.line? i = some L → j ∈ L.items → Dangles J j → Dangles J i

/-- Lines are nested deeper than `d` levels behind item `i`. -/
def Deep (J : Json R) : Nat → Int → Prop
  | 0, i => ∃ L, J.line? i = some L
  | d + 1, i => ∃ L, J.line? i = some L ∧ ∃ j ∈ L.items, Deep J d j

theorem mem_dir {i j : Int} {L : JLine} : j ∈ (if 0 ≤ i then L.items else L.items.reverse) ↔ j ∈ L.items := by
  split_ifs <;> simp

theorem generate_tells {J : Json R} (hu : Usable J) (d : Nat) :
    Tells (generate J d) (fun is => ∀ i ∈ is, Known J d i)
      (fun e is => ∃ i ∈ is, (e = .keyError ∧ Dangles J i) ∨ (e = .recursionError ∧ Deep J d i)) := by
  induction d with
  | zero =>
    intro is l h w hl
    have hs : Tells (R := R) (fun _ _ _ => .error .recursionError) (fun _ => False) (fun e _ => e = .recursionError) := by
      intro is l h _ _; rfl
    have key := genWith_tells hu hs is l h w hl
    show match genWith J (fun _ _ _ => Except.error PyErr.recursionError) is l h with | .ok h' => _ | .error e => _
    cases hg : genWith J (fun _ _ _ => Except.error PyErr.recursionError) is l h with
    | ok h' =>
      rw [hg] at key
      simp only at key ⊢
      refine ⟨?_, key.2⟩
      intro i hi
      rcases key.1 i hi with ⟨h1, e, h2⟩ | ⟨_, _, h⟩
      · exact ⟨h1, e, h2, hu.2 i e h2⟩
      · exact h.elim
    | error e =>
      rw [hg] at key
      simp only at key ⊢
      obtain ⟨i, hi, h⟩ := key
      refine ⟨i, hi, ?_⟩
      rcases h with ⟨h1, h2, h3⟩ | ⟨L, h1, h2⟩
      · exact .inl ⟨h3, .here h1 h2⟩
      · exact .inr ⟨h2, L, h1⟩
  | succ d ih =>
    intro is l h w hl
    have key := genWith_tells hu ih is l h w hl
    show match genWith J (generate J d) is l h with | .ok h' => _ | .error e => _
    cases hg : genWith J (generate J d) is l h with
    | ok h' =>
      rw [hg] at key
      simp only at key ⊢
      refine ⟨?_, key.2⟩
      intro i hi
      rcases key.1 i hi with ⟨h1, e, h2⟩ | ⟨L, h1, h⟩
      · exact .inl ⟨h1, e, h2, hu.2 i e h2⟩
      · exact .inr ⟨L, h1, fun j hj => h j (mem_dir.2 hj)⟩
    | error e =>
      rw [hg] at key
      simp only at key ⊢
      obtain ⟨i, hi, h⟩ := key
      refine ⟨i, hi, ?_⟩
      rcases h with ⟨h1, h2, h3⟩ | ⟨L, h1, j, hj, h2⟩
      · exact .inl ⟨h3, .here h1 h2⟩
      · rcases h2 with ⟨he, hd⟩ | ⟨he, hd⟩
        · exact .inl ⟨he, .sub h1 (mem_dir.1 hj) hd⟩
        · exact .inr ⟨he, L, h1, j, mem_dir.1 hj, hd⟩

/-- **C38.** Which lines are imported: those whose items lead to elements within the limit of the recursion. Otherwise KeyError is
raised, and then an item leads to an unknown number, or RecursionError, and then lines are nested deeper than the limit. -/
theorem import_ok_iff {J : Json R} (hu : Usable J) {name : Str} {i : Int} {L : JLine}
    (hL : J.lineDict.find? (fun kv => kv.2.name = name) = some (i, L)) (d : Nat) :
    ((∃ h, parseJson J d name = .ok h) ↔ ∀ j ∈ L.items, Known J d j) ∧
    ∀ e, parseJson J d name = .error e →
      (e = .keyError ∧ ∃ j ∈ L.items, Dangles J j) ∨ (e = .recursionError ∧ ∃ j ∈ L.items, Deep J d j) := by
  have hp : parseJson J d name = generate J d L.items 0 (Heap.init (some L.name)) := by unfold parseJson; rw [hL]
  have w := (inv_init J L.name L.items).wf
  have hl : 0 < (Heap.init (some L.name) : Heap R).nLine := by show 0 < 1; omega
  have key := generate_tells hu d L.items 0 _ w hl
  rw [hp]
  refine ⟨⟨?_, ?_⟩, ?_⟩
  · rintro ⟨h, hh⟩
    rw [hh] at key
    exact key.1
  · intro hk
    obtain ⟨h', h1, _⟩ := generate_ok hu.1 d L.items hk 0 _ w hl
    exact ⟨h', h1⟩
  · intro e he
    rw [he] at key
    obtain ⟨j, hj, h⟩ := key
    rcases h with ⟨h1, h2⟩ | ⟨h1, h2⟩
    · exact .inl ⟨h1, j, hj, h2⟩
    · exact .inr ⟨h1, j, hj, h2⟩

theorem Within.trans {J : Json R} {L M N : JLine} (h1 : Within J L M) (h2 : Within J M N) : Within J L N := by
  induction h2 with
  | self => exact h1
  | sub _ h3 h4 ih => exact .sub ih h3 h4

theorem known_within {J : Json R} {L M : JLine} (h : Within J L M) {d : Nat} (hk : ∀ j ∈ L.items, Known J d j) :
    ∀ j ∈ M.items, Known J d j := by
  induction h with
  | self => exact hk
  | @sub M N i _ hi hN ih =>
    intro j hj
    have := ih i hi
    cases d with
    | zero => have h1 := this.1; rw [hN] at h1; cases h1
    | succ d =>
      rcases this with ⟨h1, _⟩ | ⟨N', h1, h2⟩
      · rw [hN] at h1; cases h1
      · rw [hN] at h1
        cases h1
        exact (h2 j hj).succ

theorem known_cycle {J : Json R} {M N : JLine} {i : Int} (hi : i ∈ M.items) (hN : J.line? i = some N) (hc : Within J N M) :
    ∀ d, ¬ ∀ j ∈ M.items, Known J d j := by
  intro d
  induction d with
  | zero => intro h; have := (h i hi).1; rw [hN] at this; cases this
  | succ d ih =>
    intro h
    rcases h i hi with ⟨h1, _⟩ | ⟨N', h1, h2⟩
    · rw [hN] at h1; cases h1
    · rw [hN] at h1
      cases h1
      exact ih (known_within hc h2)

theorem dangles_within {J : Json R} {i : Int} (h : Dangles J i) : ∀ {L : JLine}, i ∈ L.items →
    ∃ M, Within J L M ∧ ∃ j ∈ M.items, ¬ Exists J j := by
  induction h with
  | @here i h1 h2 =>
    intro L hi
    refine ⟨L, .self, i, hi, ?_⟩
    rintro (⟨M, h⟩ | ⟨e, h⟩)
    · rw [h1] at h; cases h
    · rw [h2] at h; cases h
  | @sub i j N h1 h2 _ ih =>
    intro L hi
    obtain ⟨M, h3, h4⟩ := ih h2
    exact ⟨M, (Within.sub .self hi h1).trans h3, h4⟩

/-- A line that contains itself, at any depth, is never imported: RecursionError if all numbers are known. -/
theorem import_cycle_fails {J : Json R} (hu : Usable J) {name : Str} {i k : Int} {L M N : JLine}
    (hL : J.lineDict.find? (fun kv => kv.2.name = name) = some (i, L))
    (hM : Within J L M) (hk : k ∈ M.items) (hN : J.line? k = some N) (hc : Within J N M) (d : Nat) :
    (∀ h, parseJson J d name ≠ .ok h) ∧
    ((∀ M, Within J L M → ∀ j ∈ M.items, Exists J j) → parseJson J d name = .error .recursionError) := by
  obtain ⟨h1, h2⟩ := import_ok_iff hu hL d
  have h3 : ∀ h, parseJson J d name ≠ .ok h := fun h hh => known_cycle hk hN hc d (known_within hM (h1.1 ⟨h, hh⟩))
  refine ⟨h3, fun he => ?_⟩
  cases hp : parseJson J d name with
  | ok h => exact absurd hp (h3 h)
  | error e =>
    rcases h2 e hp with ⟨_, j, hj, hd⟩ | ⟨rfl, _⟩
    · obtain ⟨M', hw, j', hj', hn⟩ := dangles_within hd hj
      exact absurd (he M' hw j' hj') hn
    · rfl

theorem Makes.unique {J : Json R} {T is : List Int} {es fs : List (JElem R)} (h1 : Makes J T is es) (h2 : Makes J T is fs) : es = fs := by
  induction h1 generalizing fs with
  | nil => cases h2; rfl
  | elem a b c _ ih =>
    cases h2 with
    | elem a' b' c' d' =>
      rw [b] at b'
      cases b'
      rw [c] at c'
      cases c'
      rw [ih d']
    | line a' _ _ => rw [a] at a'; cases a'
  | line a _ _ ih1 ih2 =>
    cases h2 with
    | elem a' _ _ _ => rw [a] at a'; cases a'
    | line a' b' c' =>
      rw [a] at a'
      cases a'
      rw [ih1 b', ih2 c']

/-- **C38.** The exact elements of every imported line: the object of a sub-beamline is shared by all uses of its name in one
line and has the items of all of them; of elements with one name in a line the first is used. There is one such list. -/
theorem import_elements {J : Json R} {d : Nat} {name : Str} {h : Heap R} (hr : parseJson J d name = .ok h) {i : Int} {L : JLine}
    (hL : J.lineDict.find? (fun kv => kv.2.name = name) = some (i, L)) :
    ∃ es, HasElements J h es ∧ ∀ fs, Makes J L.items L.items fs ↔ fs = es := by
  obtain ⟨es, h1, h2⟩ := import_exact hr hL
  exact ⟨es, h2, fun fs => ⟨fun h => h.unique h1, fun h => h ▸ h1⟩⟩

/-- A ring that contains itself. -/
def exCycle : Json Int :=
  { lines := [(1, ⟨"ring".toList, [2, 10]⟩), (2, ⟨"half".toList, [10, -1]⟩), (3, ⟨"open".toList, [10, 99]⟩)],
    elems := [(10, ⟨"D".toList, "DRIF".toList, [("l".toList, .num 1)]⟩)], cache := some [] }

theorem exCycle_usable : Usable exCycle := by
  refine ⟨rfl, ?_⟩
  intro i e he
  have : i = 10 := by
    by_contra h
    have : exCycle.elem? i = none := by
      show dget [((10 : Int), _)] i = none
      unfold dget
      simp [Ne.symm h]
    rw [this] at he
    cases he
  subst this
  cases he
  intro kv hkv
  revert kv
  decide +kernel

example (d : Nat) : parseJson exCycle d "ring".toList = .error .recursionError := by
  have w1 : Within exCycle ⟨"ring".toList, [2, 10]⟩ ⟨"half".toList, [10, -1]⟩ := .sub (i := 2) .self (by simp) rfl
  refine (import_cycle_fails exCycle_usable (i := 1) (k := -1) (N := ⟨"ring".toList, [2, 10]⟩) rfl w1 (by simp) rfl w1 d).2 ?_
  intro M hM
  have : M = ⟨"ring".toList, [2, 10]⟩ ∨ M = ⟨"half".toList, [10, -1]⟩ := by
    induction hM with
    | self => exact .inl rfl
    | @sub M N i _ hi hN ih =>
      rcases ih with rfl | rfl
      · simp only [List.mem_cons, List.not_mem_nil, or_false] at hi
        rcases hi with rfl | rfl
        · cases hN; exact .inr rfl
        · cases hN
      · simp only [List.mem_cons, List.not_mem_nil, or_false] at hi
        rcases hi with rfl | rfl
        · cases hN
        · cases hN; exact .inl rfl
  intro j hj
  rcases this with rfl | rfl <;> simp only [List.mem_cons, List.not_mem_nil, or_false] at hj <;> rcases hj with rfl | rfl
  · exact .inl ⟨_, rfl⟩
  · exact .inr ⟨_, rfl⟩
  · exact .inr ⟨_, rfl⟩
  · exact .inl ⟨_, rfl⟩

example : parseJson exCycle 9 "open".toList = .error .keyError := by rfl

end Verif.Import
