import Verif.Trace.Bends
import Verif.Trace.PropsCavities
import Mathlib.Data.List.Nodup
import Mathlib.Data.List.Pairwise

/-!
# Property C130: bends take over their edges
-/

namespace Verif.Trace

open Verif.Lattice

variable {R : Type}

/-! ## What the neighbours of a bend give -/

/-- A dipole. -/
def Bend (h : Heap R) (e : Nat) : Prop := (h.elem e).type = "sbend".toList

instance (h : Heap R) (e : Nat) : Decidable (Bend h e) := inferInstanceAs (Decidable (_ = _))

/-- The position in front; in front of the first position is the last. -/
def before (n i : Nat) : Nat := if i = 0 then n - 1 else i - 1

/-- The values that a bend between `a` and `c` takes over: the face angles, half the gap and the fringe field integral. -/
structure Faces (R : Type) where
  e1 : PVal R
  e2 : PVal R
  gap : R
  fint : PVal R

/-- The elements `a` and `c` have these values. -/
structure HasFaces (h : Heap R) (a c : Nat) (f : Faces R) : Prop where
  e1 : Params.getItem (h.elem a).params "beta".toList = some f.e1
  e2 : Params.getItem (h.elem c).params "beta".toList = some f.e2
  gap : Params.getItem (h.elem a).params "g".toList = some (.num f.gap)
  fint : Params.getItem (h.elem a).params "k1".toList = some f.fint

/-- The bend at position `i` has two neighbours with the values. -/
def Enclosed (h : Heap R) (es : List Nat) (i : Nat) : Prop :=
  ∃ (a c : Nat) (f : Faces R), es[before es.length i]? = some a ∧ es[i + 1]? = some c ∧ HasFaces h a c f

/-- The neighbours of the bends, in their order. -/
def neighbours (h : Heap R) (es : List Nat) (is : List Nat) : List Nat :=
  (is.filter fun i => Bend h (es.getD i 0)).flatMap fun i => [es.getD (before es.length i) 0, es.getD (i + 1) 0]

/-! ## Single steps -/

theorem pyIndex_before {es : List Nat} {i : Nat} (hi : i < es.length) :
    pyIndex (es.map Item.elem) ((i : Int) - 1) = (es[before es.length i]?).map Item.elem := by
  unfold pyIndex before
  by_cases h0 : i = 0
  · rw [if_neg (by omega), if_pos (by rw [List.length_map]; omega), if_pos h0, List.getElem?_map, List.length_map]
    congr 2
    omega
  · rw [if_pos (by omega), if_neg h0, List.getElem?_map]
    congr 2
    omega

theorem pyIndex_next (es : List Nat) (i : Nat) : pyIndex (es.map Item.elem) ((i : Int) + 1) = (es[i + 1]?).map Item.elem := by
  unfold pyIndex
  rw [if_pos (by omega), List.getElem?_map]
  congr 2

theorem valueAt_iff {h : Heap R} {es : List Nat} (hs : (h.line 0).seq = es.map Item.elem) {i : Int} {k : Nat}
    (hk : pyIndex (es.map Item.elem) i = (es[k]?).map Item.elem) (key : Str) (v : PVal R) :
    valueAt h i key = .ok v ↔ ∃ e, es[k]? = some e ∧ Params.getItem (h.elem e).params key = some v := by
  unfold valueAt
  rw [hs, hk]
  cases es[k]? with
  | none => simp
  | some e =>
    simp only [Option.map_some]
    cases hg : Params.getItem (h.elem e).params key with
    | none => simp [hg]
    | some w => simp [hg]

/-- The element with the values of its neighbours. -/
def withFaces (half : R → R) (h : Heap R) (b : Nat) (f : Faces R) : Heap R :=
  h.setElem b { h.elem b with params := Params.setItem (Params.setItem (Params.setItem (Params.setItem (h.elem b).params "E1".toList f.e1)
    "E2".toList f.e2) "HGAP".toList (.num (half f.gap))) "FINT".toList f.fint }

theorem except_bind_iff {α β : Type} (x : Except PyErr α) (f : α → Except PyErr β) (b : β) :
    (x >>= f) = .ok b ↔ ∃ a, x = .ok a ∧ f a = .ok b := by
  cases x with
  | error e =>
    constructor
    · intro h; exact absurd h (by intro h'; cases h')
    · rintro ⟨a, h, -⟩; cases h
  | ok a =>
    constructor
    · intro h; exact ⟨a, rfl, h⟩
    · rintro ⟨a', h, h'⟩
      injection h with h
      subst h
      exact h'

theorem halfOf_iff (half : R → R) (v w : PVal R) : halfOf half v = .ok w ↔ ∃ x, v = .num x ∧ w = .num (half x) := by
  cases v with
  | num x =>
    constructor
    · intro h; injection h with h; exact ⟨x, rfl, h.symm⟩
    · rintro ⟨y, h1, rfl⟩; injection h1 with h1; rw [h1]; rfl
  | str s =>
    constructor
    · intro h; cases h
    · rintro ⟨y, h1, -⟩; cases h1

theorem lower_keys : lower "BETA".toList = "beta".toList ∧ lower "G".toList = "g".toList ∧ lower "K1".toList = "k1".toList ∧
    lower "beta".toList = "beta".toList ∧ lower "g".toList = "g".toList ∧ lower "k1".toList = "k1".toList := by decide

theorem getItem_lower (d : Params R) {a b : Str} (h : lower a = lower b) : Params.getItem d a = Params.getItem d b := by
  unfold Params.getItem
  rw [h]

theorem bendStep_iff (half : R → R) {h : Heap R} {es : List Nat} (hs : (h.line 0).seq = es.map Item.elem) {i b : Nat} (hb : es[i]? = some b)
    (r : Heap R × List Item) :
    bendStep half h i = .ok r ↔ ∃ (a c : Nat) (f : Faces R), es[before es.length i]? = some a ∧ es[i + 1]? = some c ∧ HasFaces h a c f ∧
      r = (withFaces half h b f, [.elem a, .elem c]) := by
  have hi : i < es.length := (List.getElem?_eq_some_iff.1 hb).1
  have hpb := pyIndex_before hi
  have hpn := pyIndex_next es i
  have hbeta : ∀ d : Params R, Params.getItem d "BETA".toList = Params.getItem d "beta".toList := fun d => getItem_lower d (by decide)
  have hg : ∀ d : Params R, Params.getItem d "G".toList = Params.getItem d "g".toList := fun d => getItem_lower d (by decide)
  have hk1 : ∀ d : Params R, Params.getItem d "K1".toList = Params.getItem d "k1".toList := fun d => getItem_lower d (by decide)
  have hedit : ∀ f : Faces R, (h.editIndex 0 (i : Int) ["E1".toList, "E2".toList, "HGAP".toList, "FINT".toList] [f.e1, f.e2, .num (half f.gap), f.fint]).1 =
      withFaces half h b f := by
    intro f
    have : pyIndex (h.line 0).seq (i : Int) = some (.elem b) := by
      rw [hs]
      unfold pyIndex
      rw [if_pos (by omega), Int.toNat_natCast, List.getElem?_map, hb]
      rfl
    unfold Heap.editIndex
    rw [if_neg (by simp), this]
    rfl
  unfold bendStep
  simp only [except_bind_iff, valueAt_iff hs hpb, valueAt_iff hs hpn, halfOf_iff, hbeta, hg, hk1]
  constructor
  · rintro ⟨e1, ⟨a, ha, h1⟩, e2, ⟨c, hc, h2⟩, g, ⟨a', ha', h3⟩, w, ⟨x, rfl, rfl⟩, fint, ⟨a'', ha'', h4⟩, hr⟩
    rw [ha] at ha' ha''
    injection ha' with ha'
    injection ha'' with ha''
    subst ha' ha''
    refine ⟨a, c, ⟨e1, e2, x, fint⟩, ha, hc, ⟨h1, h2, h3, h4⟩, ?_⟩
    injection hr with hr
    rw [← hr, ← hedit, hs, hpb, hpn, ha, hc]
    rfl
  · rintro ⟨a, c, f, ha, hc, hf, rfl⟩
    refine ⟨f.e1, ⟨a, ha, hf.e1⟩, f.e2, ⟨c, hc, hf.e2⟩, _, ⟨a, ha, hf.gap⟩, _, ⟨_, rfl, rfl⟩, f.fint, ⟨a, ha, hf.fint⟩, ?_⟩
    rw [← hedit, hs, hpb, hpn, ha, hc]
    rfl

/-- Nothing but the four values may differ. -/
structure SameButFaces (h h' : Heap R) : Prop where
  line : h'.line = h.line
  name : ∀ k, (h'.elem k).name = (h.elem k).name
  type : ∀ k, (h'.elem k).type = (h.elem k).type
  params : ∀ k key, lower key ∉ ["e1".toList, "e2".toList, "hgap".toList, "fint".toList] →
    Params.getItem (h'.elem k).params key = Params.getItem (h.elem k).params key

theorem SameButFaces.refl (h : Heap R) : SameButFaces h h := ⟨rfl, fun _ => rfl, fun _ => rfl, fun _ _ _ => rfl⟩

theorem SameButFaces.trans {a b c : Heap R} (h1 : SameButFaces a b) (h2 : SameButFaces b c) : SameButFaces a c :=
  ⟨h2.line.trans h1.line, fun k => (h2.name k).trans (h1.name k), fun k => (h2.type k).trans (h1.type k),
    fun k key hk => (h2.params k key hk).trans (h1.params k key hk)⟩

/-- The values afterwards. -/
def faceItem (half : R → R) (f : Faces R) (d : Params R) (key : Str) : Option (PVal R) :=
  if lower key = "e1".toList then some f.e1
  else if lower key = "e2".toList then some f.e2
  else if lower key = "hgap".toList then some (.num (half f.gap))
  else if lower key = "fint".toList then some f.fint
  else Params.getItem d key

theorem withFaces_params (half : R → R) (h : Heap R) (b : Nat) (f : Faces R) (key : Str) :
    Params.getItem ((withFaces half h b f).elem b).params key = faceItem half f (h.elem b).params key := by
  unfold withFaces Heap.setElem
  simp only [if_true]
  simp only [getItem_setItem]
  rw [show lower "E1".toList = "e1".toList by decide, show lower "E2".toList = "e2".toList by decide, show lower "HGAP".toList = "hgap".toList by decide,
    show lower "FINT".toList = "fint".toList by decide]
  unfold faceItem
  generalize lower key = k
  by_cases h1 : k = "e1".toList
  · subst h1
    rw [if_neg (by decide), if_neg (by decide), if_neg (by decide), if_pos rfl, if_pos rfl]
  · by_cases h2 : k = "e2".toList
    · subst h2
      rw [if_neg (by decide), if_neg (by decide), if_pos rfl, if_neg (by decide), if_pos rfl]
    · by_cases h3 : k = "hgap".toList
      · subst h3
        rw [if_neg (by decide), if_pos rfl, if_neg (by decide), if_neg (by decide), if_pos rfl]
      · by_cases h4 : k = "fint".toList
        · subst h4
          rw [if_pos rfl, if_neg (by decide), if_neg (by decide), if_neg (by decide), if_pos rfl]
        · rw [if_neg (Ne.symm h4), if_neg (Ne.symm h3), if_neg (Ne.symm h2), if_neg (Ne.symm h1), if_neg h1, if_neg h2, if_neg h3, if_neg h4]

theorem withFaces_other (half : R → R) (h : Heap R) (b : Nat) (f : Faces R) {k : Nat} (hk : k ≠ b) : (withFaces half h b f).elem k = h.elem k := by
  unfold withFaces Heap.setElem
  simp only
  rw [if_neg hk]

theorem withFaces_same (half : R → R) (h : Heap R) (b : Nat) (f : Faces R) : SameButFaces h (withFaces half h b f) := by
  refine ⟨rfl, ?_, ?_, ?_⟩
  · intro k
    by_cases hk : k = b
    · subst hk; unfold withFaces Heap.setElem; simp
    · rw [withFaces_other half h b f hk]
  · intro k
    by_cases hk : k = b
    · subst hk; unfold withFaces Heap.setElem; simp
    · rw [withFaces_other half h b f hk]
  · intro k key hkey
    by_cases hk : k = b
    · subst hk
      rw [withFaces_params]
      simp only [List.mem_cons, List.not_mem_nil, or_false] at hkey
      push Not at hkey
      unfold faceItem
      rw [if_neg hkey.1, if_neg hkey.2.1, if_neg hkey.2.2.1, if_neg hkey.2.2.2]
    · rw [withFaces_other half h b f hk]

theorem SameButFaces.faces {h h' : Heap R} (hh : SameButFaces h h') (a c : Nat) (f : Faces R) : HasFaces h' a c f ↔ HasFaces h a c f := by
  have hb := fun k => hh.params k "beta".toList (by decide)
  have hg := fun k => hh.params k "g".toList (by decide)
  have hk := fun k => hh.params k "k1".toList (by decide)
  constructor
  · rintro ⟨h1, h2, h3, h4⟩
    rw [hb] at h1 h2
    rw [hg] at h3
    rw [hk] at h4
    exact ⟨h1, h2, h3, h4⟩
  · rintro ⟨h1, h2, h3, h4⟩
    refine ⟨?_, ?_, ?_, ?_⟩
    · rw [hb]; exact h1
    · rw [hb]; exact h2
    · rw [hg]; exact h3
    · rw [hk]; exact h4

theorem SameButFaces.bend {h h' : Heap R} (hh : SameButFaces h h') (e : Nat) : Bend h' e ↔ Bend h e := by
  unfold Bend
  rw [hh.type]

theorem HasFaces.unique {h : Heap R} {a c : Nat} {f f' : Faces R} (h1 : HasFaces h a c f) (h2 : HasFaces h a c f') : f = f' := by
  have e1 := h1.e1.symm.trans h2.e1
  have e2 := h1.e2.symm.trans h2.e2
  have e3 := h1.gap.symm.trans h2.gap
  have e4 := h1.fint.symm.trans h2.fint
  cases f
  cases f'
  simp only [Option.some.injEq, PVal.num.injEq] at e1 e2 e3 e4
  rw [e1, e2, e3, e4]

/-! ## The loops -/

theorem bendLoop_iff (half : R → R) (h0 : Heap R) (es : List Nat) (hs : (h0.line 0).seq = es.map Item.elem) : ∀ (is : List Nat), (∀ i ∈ is, i < es.length) →
    ∀ (h : Heap R) (acc : List Item), SameButFaces h0 h →
    ((∀ i ∈ is, Bend h0 (es.getD i 0) → Enclosed h0 es i) ∧ (∃ h', SameButFaces h0 h' ∧
        bendLoop half is h acc = .ok (h', acc ++ (neighbours h0 es is).map Item.elem) ∧
        (∀ k, (∀ i ∈ is, es[i]? = some k → ¬ Bend h0 k) → h'.elem k = h.elem k) ∧
        (es.Nodup → is.Nodup → ∀ i ∈ is, ∀ b a c f, es[i]? = some b → Bend h0 b → es[before es.length i]? = some a → es[i + 1]? = some c → HasFaces h0 a c f →
          ∀ key, Params.getItem (h'.elem b).params key = faceItem half f (h.elem b).params key))) ∨
    ((∃ i ∈ is, Bend h0 (es.getD i 0) ∧ ¬ Enclosed h0 es i) ∧ ∃ e, bendLoop half is h acc = .error e) := by
  intro is
  induction is with
  | nil =>
    intro _ h acc hh
    refine .inl ⟨by simp, h, hh, by simp [bendLoop, neighbours], fun _ _ => rfl, fun _ _ i hi => absurd hi (by simp)⟩
  | cons i is ih =>
    intro hl h acc hh
    have hi := hl i (by simp)
    have hl' : ∀ j ∈ is, j < es.length := fun j hj => hl j (List.mem_cons_of_mem _ hj)
    have hb : es[i]? = some es[i] := List.getElem?_eq_getElem hi
    have hgd : es.getD i 0 = es[i] := by rw [List.getD_eq_getElem?_getD, hb]; rfl
    have hs' : (h.line 0).seq = es.map Item.elem := by rw [hh.line, hs]
    have hat : (h.line 0).seq[i]? = some (.elem es[i]) := by rw [hs', List.getElem?_map, hb]; rfl
    by_cases hbend : Bend h0 es[i]
    · have hbend' : (h.elem es[i]).type = "sbend".toList := (hh.bend _).2 hbend
      by_cases henc : Enclosed h0 es i
      · obtain ⟨a, c, f, ha, hc, hf⟩ := henc
        have hstep := (bendStep_iff half hs' hb (withFaces half h es[i] f, [.elem a, .elem c])).2 ⟨a, c, f, ha, hc, (hh.faces a c f).2 hf, rfl⟩
        have hloop : bendLoop half (i :: is) h acc = bendLoop half is (withFaces half h es[i] f) (acc ++ [.elem a, .elem c]) := by
          rw [bendLoop, hat]
          simp only
          rw [if_pos hbend', hstep]
        have hga : es.getD (before es.length i) 0 = a := by rw [List.getD_eq_getElem?_getD, ha]; rfl
        have hgc : es.getD (i + 1) 0 = c := by rw [List.getD_eq_getElem?_getD, hc]; rfl
        have hnb : neighbours h0 es (i :: is) = a :: c :: neighbours h0 es is := by
          unfold neighbours
          rw [List.filter_cons_of_pos (by rw [hgd]; simpa using hbend), List.flatMap_cons, hga, hgc]
          rfl
        rcases ih hl' (withFaces half h es[i] f) (acc ++ [.elem a, .elem c]) (hh.trans (withFaces_same half h es[i] f)) with
          ⟨h1, h', h2, h3, h4, h5⟩ | ⟨⟨j, hj, h1⟩, e, h2⟩
        · refine .inl ⟨?_, h', h2, ?_, ?_, ?_⟩
          · intro j hj
            rcases List.mem_cons.1 hj with rfl | hj
            · intro _; exact ⟨a, c, f, ha, hc, hf⟩
            · exact h1 j hj
          · rw [hloop, h3, hnb]
            simp
          · intro k hk
            rw [h4 k fun j hj => hk j (List.mem_cons_of_mem _ hj)]
            refine withFaces_other half h _ f ?_
            rintro rfl
            exact hk i (by simp) hb hbend
          · intro hn hni j hj b a' c' f' hjb hjbend ha' hc' hf' key
            rw [List.nodup_cons] at hni
            rcases List.mem_cons.1 hj with rfl | hj
            · rw [hb] at hjb
              rw [ha] at ha'
              rw [hc] at hc'
              injection hjb with hjb
              injection ha' with ha'
              injection hc' with hc'
              subst hjb ha' hc'
              rw [hf'.unique hf]
              rw [h4 es[j] ?_, withFaces_params]
              intro k hk hkb
              have := nodup_pos hn hkb hb
              subst this
              exact absurd hk hni.1
            · rw [h5 hn hni.2 j hj b a' c' f' hjb hjbend ha' hc' hf' key]
              rw [withFaces_other]
              rintro rfl
              have := nodup_pos hn hjb hb
              rw [this] at hj
              exact absurd hj hni.1
        · exact .inr ⟨⟨j, List.mem_cons_of_mem _ hj, h1⟩, e, hloop.trans h2⟩
      · refine .inr ⟨⟨i, by simp, by rw [hgd]; exact hbend, henc⟩, ?_⟩
        cases hst : bendStep half h i with
        | ok r =>
          obtain ⟨a, c, f, ha, hc, hf, -⟩ := (bendStep_iff half hs' hb r).1 hst
          exact absurd ⟨a, c, f, ha, hc, (hh.faces a c f).1 hf⟩ henc
        | error e =>
          refine ⟨e, ?_⟩
          rw [bendLoop, hat]
          simp only
          rw [if_pos hbend', hst]
    · have hbend' : ¬ (h.elem es[i]).type = "sbend".toList := fun hx => hbend ((hh.bend _).1 hx)
      have hloop : bendLoop half (i :: is) h acc = bendLoop half is h acc := by
        rw [bendLoop, hat]
        simp only
        rw [if_neg hbend']
      have hnb : neighbours h0 es (i :: is) = neighbours h0 es is := by
        unfold neighbours
        rw [List.filter_cons_of_neg (by rw [hgd]; simpa using hbend)]
      rw [hloop, hnb]
      rcases ih hl' h acc hh with ⟨h1, h', h2, h3, h4, h5⟩ | ⟨⟨j, hj, h1⟩, e, h2⟩
      · refine .inl ⟨?_, h', h2, h3, ?_, ?_⟩
        · intro j hj hjb
          rcases List.mem_cons.1 hj with rfl | hj
          · rw [hgd] at hjb; exact absurd hjb hbend
          · exact h1 j hj hjb
        · intro k hk
          exact h4 k fun j hj => hk j (List.mem_cons_of_mem _ hj)
        · intro hn hni j hj b a c f hjb hjbend
          rcases List.mem_cons.1 hj with rfl | hj
          · rw [hb] at hjb
            injection hjb with hjb
            rw [← hjb] at hjbend
            exact absurd hjbend hbend
          · exact h5 hn (List.nodup_cons.1 hni).2 j hj b a c f hjb hjbend
      · exact .inr ⟨⟨j, List.mem_cons_of_mem _ hj, h1⟩, e, h2⟩

theorem removeLoop_iff : ∀ (edges seq : List Item), ((∀ x, edges.count x ≤ seq.count x) ∧ removeLoop edges seq = .ok (seq.diff edges)) ∨
    ((∃ x, seq.count x < edges.count x) ∧ removeLoop edges seq = .error .valueError) := by
  intro edges
  induction edges with
  | nil => intro seq; exact .inl ⟨by simp, rfl⟩
  | cons e edges ih =>
    intro seq
    by_cases he : e ∈ seq
    · have hr : removeLoop (e :: edges) seq = removeLoop edges (seq.erase e) := by rw [removeLoop, if_pos he]
      have hc : ∀ x, seq.count x = (seq.erase e).count x + if e = x then 1 else 0 := by
        intro x
        by_cases hx : e = x
        · subst hx
          rw [List.count_erase_self, if_pos rfl]
          have := List.count_pos_iff.2 he
          omega
        · rw [List.count_erase_of_ne (Ne.symm hx), if_neg hx, Nat.add_zero]
      rcases ih (seq.erase e) with ⟨h1, h2⟩ | ⟨⟨x, h1⟩, h2⟩
      · refine .inl ⟨?_, ?_⟩
        · intro x
          rw [List.count_cons, hc x]
          have := h1 x
          by_cases hx : e = x
          · rw [if_pos hx, if_pos (by simpa using hx)]; omega
          · rw [if_neg hx, if_neg (by simpa using hx)]; omega
        · rw [hr, h2, List.diff_cons]
      · refine .inr ⟨⟨x, ?_⟩, hr.trans h2⟩
        rw [List.count_cons, hc x]
        by_cases hx : e = x
        · rw [if_pos hx, if_pos (by simpa using hx)]; omega
        · rw [if_neg hx, if_neg (by simpa using hx)]; omega
    · refine .inr ⟨⟨e, ?_⟩, by rw [removeLoop, if_neg he]⟩
      rw [List.count_eq_zero_of_not_mem he, List.count_cons]
      simp

theorem count_map_elem (l : List Nat) (k : Nat) : (l.map Item.elem).count (.elem k) = l.count k :=
  List.count_map_of_injective l Item.elem (fun _ _ h => by injection h) k

/-- The whole method: accepted exactly if every bend is enclosed and no element is used more often than it stands in the line. -/
theorem handleBends_cases (half : R → R) (h : Heap R) (es : List Nat) (hs : (h.line 0).seq = es.map Item.elem) :
    (((∀ i < es.length, Bend h (es.getD i 0) → Enclosed h es i) ∧ ∀ k, (neighbours h es (List.range es.length)).count k ≤ es.count k) ∧
      ∃ h' h'', handleBends half h = .ok h' ∧ SameButFaces h h'' ∧ h'.elem = h''.elem ∧
        (h'.line 0).seq = (es.map Item.elem).diff ((neighbours h es (List.range es.length)).map Item.elem) ∧
        (∀ k, (∀ i < es.length, es[i]? = some k → ¬ Bend h k) → h'.elem k = h.elem k) ∧
        (es.Nodup → ∀ i < es.length, ∀ b a c f, es[i]? = some b → Bend h b → es[before es.length i]? = some a → es[i + 1]? = some c → HasFaces h a c f →
          ∀ key, Params.getItem (h'.elem b).params key = faceItem half f (h.elem b).params key)) ∨
    (¬ ((∀ i < es.length, Bend h (es.getD i 0) → Enclosed h es i) ∧ ∀ k, (neighbours h es (List.range es.length)).count k ≤ es.count k) ∧
      ∃ e, handleBends half h = .error e) := by
  have hlen : (h.line 0).seq.length = es.length := by rw [hs, List.length_map]
  rcases bendLoop_iff half h es hs (List.range es.length) (fun i hi => List.mem_range.1 hi) h [] (SameButFaces.refl h) with
    ⟨h1, h', h2, h3, h4, h5⟩ | ⟨⟨i, hi, hb, he⟩, e, h1⟩
  · rw [List.nil_append] at h3
    have hs' : (h'.line 0).seq = es.map Item.elem := by rw [h2.line, hs]
    rcases removeLoop_iff ((neighbours h es (List.range es.length)).map Item.elem) (es.map Item.elem) with ⟨g1, g2⟩ | ⟨⟨x, g1⟩, g2⟩
    · refine .inl ⟨⟨fun i hi => h1 i (List.mem_range.2 hi), ?_⟩, h'.setLine 0 { h'.line 0 with seq := (es.map Item.elem).diff ((neighbours h es (List.range es.length)).map Item.elem) },
        h', ?_, h2, rfl, ?_, ?_, ?_⟩
      · intro k
        have := g1 (.elem k)
        rwa [count_map_elem, count_map_elem] at this
      · unfold handleBends
        rw [hlen, h3]
        simp only
        rw [hs', g2]
      · simp [Heap.setLine]
      · intro k hk
        exact h4 k fun i hi => hk i (List.mem_range.1 hi)
      · intro hn i hi
        exact h5 hn List.nodup_range i (List.mem_range.2 hi)
    · refine .inr ⟨?_, .valueError, ?_⟩
      · rintro ⟨-, hc⟩
        cases x with
        | elem k =>
          rw [count_map_elem, count_map_elem] at g1
          have := hc k
          omega
        | line k =>
          have : ((neighbours h es (List.range es.length)).map Item.elem).count (.line k) = 0 := by
            refine List.count_eq_zero_of_not_mem ?_
            simp
          omega
      · unfold handleBends
        rw [hlen, h3]
        simp only
        rw [hs', g2]
  · refine .inr ⟨fun hc => he (hc.1 i (List.mem_range.1 hi) hb), e, ?_⟩
    unfold handleBends
    rw [hlen, h1]

/-! ## C130 -/

theorem mem_neighbours {h : Heap R} {es : List Nat} {k : Nat} : k ∈ neighbours h es (List.range es.length) ↔
    ∃ i < es.length, Bend h (es.getD i 0) ∧ (k = es.getD (before es.length i) 0 ∨ k = es.getD (i + 1) 0) := by
  unfold neighbours
  rw [List.mem_flatMap]
  constructor
  · rintro ⟨i, hi, hk⟩
    rw [List.mem_filter, List.mem_range] at hi
    exact ⟨i, hi.1, by simpa using hi.2, by simpa using hk⟩
  · rintro ⟨i, hi, hb, hk⟩
    exact ⟨i, List.mem_filter.2 ⟨List.mem_range.2 hi, by simpa using hb⟩, by simpa using hk⟩

theorem diff_map_elem {es ks : List Nat} (hn : es.Nodup) :
    (es.map Item.elem).diff (ks.map Item.elem) = (es.filter fun e => e ∉ ks).map Item.elem := by
  have hinj : Function.Injective Item.elem := fun _ _ h => by injection h
  rw [List.Nodup.diff_eq_filter (hn.map hinj), List.filter_map]
  congr 1
  refine List.filter_congr ?_
  intro e _
  have : Item.elem e ∈ ks.map Item.elem ↔ e ∈ ks := List.mem_map_of_injective hinj
  simp only [Function.comp, this]

/-- **C130, exactly when the method is accepted.** In a line of distinct elements every bend must have two neighbours with face angles,
and no element may be the neighbour of two bends. In front of the first element is the last one. -/
theorem bends_ok_iff (half : R → R) (h : Heap R) (es : List Nat) (hs : (h.line 0).seq = es.map Item.elem) (hn : es.Nodup) :
    (∃ h', handleBends half h = .ok h') ↔
      (∀ i < es.length, Bend h (es.getD i 0) → Enclosed h es i) ∧ (neighbours h es (List.range es.length)).Nodup := by
  have hc : (∀ i < es.length, Bend h (es.getD i 0) → Enclosed h es i) →
      ((∀ k, (neighbours h es (List.range es.length)).count k ≤ es.count k) ↔ (neighbours h es (List.range es.length)).Nodup) := by
    intro henc
    rw [List.nodup_iff_count_le_one]
    constructor
    · intro hk k
      exact (hk k).trans (List.nodup_iff_count_le_one.1 hn k)
    · intro hk k
      by_cases hm : k ∈ neighbours h es (List.range es.length)
      · have hmem : k ∈ es := by
          obtain ⟨i, hi, hb, hk⟩ := mem_neighbours.1 hm
          obtain ⟨a, c, f, ha, hc, -⟩ := henc i hi hb
          rcases hk with hk | hk
          · rw [hk, List.getD_eq_getElem?_getD, ha]
            exact List.mem_of_getElem? ha
          · rw [hk, List.getD_eq_getElem?_getD, hc]
            exact List.mem_of_getElem? hc
        exact (hk k).trans (List.count_pos_iff.2 hmem)
      · rw [List.count_eq_zero_of_not_mem hm]
        exact Nat.zero_le _
  rcases handleBends_cases half h es hs with ⟨⟨h1, h2⟩, h', h'', h3, -⟩ | ⟨h1, e, h2⟩
  · exact ⟨fun _ => ⟨h1, (hc h1).1 h2⟩, fun _ => ⟨h', h3⟩⟩
  · constructor
    · rintro ⟨h', h3⟩
      rw [h2] at h3
      cases h3
    · rintro ⟨h3, h4⟩
      exact absurd ⟨h3, (hc h3).2 h4⟩ h1

/-- **C130, the result.** The neighbours of the bends are gone, each bend has the face angles of its neighbours and half the gap and the fringe field
integral of the element in front, and nothing else is changed. -/
theorem bends_result (half : R → R) (h h' : Heap R) (es : List Nat) (hs : (h.line 0).seq = es.map Item.elem) (hn : es.Nodup)
    (hok : handleBends half h = .ok h') :
    (h'.line 0).seq = (es.filter fun e => e ∉ neighbours h es (List.range es.length)).map Item.elem ∧
    (∀ k, (h'.elem k).name = (h.elem k).name ∧ (h'.elem k).type = (h.elem k).type) ∧
    (∀ k, ¬ Bend h k → h'.elem k = h.elem k) ∧
    ∀ i b, es[i]? = some b → Bend h b → ∃ a c f, es[before es.length i]? = some a ∧ es[i + 1]? = some c ∧ HasFaces h a c f ∧
      ∀ key, Params.getItem (h'.elem b).params key = faceItem half f (h.elem b).params key := by
  rcases handleBends_cases half h es hs with ⟨⟨h1, h2⟩, g, g', h3, h4, h5, h6, h7, h8⟩ | ⟨-, e, h2⟩
  · rw [hok] at h3
    injection h3 with h3
    subst h3
    refine ⟨?_, ?_, ?_, ?_⟩
    · rw [h6, diff_map_elem hn]
    · intro k
      rw [h5]
      exact ⟨h4.name k, h4.type k⟩
    · intro k hk
      exact h7 k fun _ _ _ => hk
    · intro i b hb hbend
      have hi : i < es.length := (List.getElem?_eq_some_iff.1 hb).1
      have hgd : es.getD i 0 = b := by rw [List.getD_eq_getElem?_getD, hb]; rfl
      obtain ⟨a, c, f, ha, hc, hf⟩ := h1 i hi (by rw [hgd]; exact hbend)
      exact ⟨a, c, f, ha, hc, hf, h8 hn i hi b a c f hb hbend ha hc hf⟩
  · rw [hok] at h2
    cases h2

/-- **C130, what is true of it.** If the line neither starts nor ends with a bend, the neighbours of bends are no bends but have face angles, and two
bends never share a neighbour, then the method is accepted and the edges disappear into their bends. Missing: lines with shared edges or with a
bend at the start, see `bends_shared_fails` and `bends_first_fails`. -/
theorem bends_partial (half : R → R) (h : Heap R) (es : List Nat) (hs : (h.line 0).seq = es.map Item.elem) (hn : es.Nodup)
    (hside : ∀ i b, es[i]? = some b → Bend h b → ∃ a c f, i ≠ 0 ∧ es[i - 1]? = some a ∧ es[i + 1]? = some c ∧ ¬ Bend h a ∧ ¬ Bend h c ∧ HasFaces h a c f)
    (hshare : ∀ i a b, es[i]? = some a → es[i + 2]? = some b → Bend h a → ¬ Bend h b) :
    ∃ h', handleBends half h = .ok h' ∧
      (∀ i e, es[i]? = some e → (.elem e ∈ (h'.line 0).seq ↔
        ¬ ((∃ b, es[i + 1]? = some b ∧ Bend h b) ∨ (i ≠ 0 ∧ ∃ b, es[i - 1]? = some b ∧ Bend h b)))) ∧
      (h'.line 0).seq.Sublist (h.line 0).seq ∧
      ∀ i b a c f, es[i]? = some b → Bend h b → es[i - 1]? = some a → es[i + 1]? = some c → HasFaces h a c f → Item.elem b ∈ (h'.line 0).seq ∧
        ∀ key, Params.getItem (h'.elem b).params key = faceItem half f (h.elem b).params key := by
  have hgd : ∀ i, i < es.length → es[i]? = some (es.getD i 0) := by
    intro i hi
    rw [List.getD_eq_getElem?_getD, List.getElem?_eq_getElem hi]
    rfl
  have hbef : ∀ i, i ≠ 0 → before es.length i = i - 1 := by
    intro i hi
    unfold before
    rw [if_neg hi]
  have henc : ∀ i < es.length, Bend h (es.getD i 0) → Enclosed h es i := by
    intro i hi hb
    obtain ⟨a, c, f, h0, ha, hc, -, -, hf⟩ := hside i _ (hgd i hi) hb
    exact ⟨a, c, f, by rw [hbef i h0]; exact ha, hc, hf⟩
  have hnn : (neighbours h es (List.range es.length)).Nodup := by
    unfold neighbours
    rw [List.nodup_flatMap]
    constructor
    · intro i hi
      rw [List.mem_filter, List.mem_range] at hi
      obtain ⟨a, c, f, h0, ha, hc, -, -, hf⟩ := hside i _ (hgd i hi.1) (by simpa using hi.2)
      rw [hbef i h0, List.getD_eq_getElem?_getD, List.getD_eq_getElem?_getD, ha, hc]
      simp only [Option.getD_some, List.nodup_cons, List.mem_singleton, List.not_mem_nil, not_false_eq_true, List.nodup_nil, and_self, and_true]
      rintro rfl
      have := nodup_pos hn ha hc
      omega
    · refine List.Pairwise.imp_of_mem ?_ ((List.nodup_range (n := es.length)).filter _)
      intro i j hi hj hij
      rw [List.mem_filter, List.mem_range] at hi hj
      have hbi : Bend h (es.getD i 0) := by simpa using hi.2
      have hbj : Bend h (es.getD j 0) := by simpa using hj.2
      obtain ⟨a, c, f, h0, ha, hc, -, -, hf⟩ := hside i _ (hgd i hi.1) hbi
      obtain ⟨a', c', f', h0', ha', hc', -, -, hf'⟩ := hside j _ (hgd j hj.1) hbj
      intro x hx hx'
      simp only [List.mem_cons, List.not_mem_nil, or_false, hbef i h0, hbef j h0', List.getD_eq_getElem?_getD, ha, hc, ha', hc', Option.getD_some] at hx hx'
      rcases hx with rfl | rfl <;> rcases hx' with hx | hx <;> subst hx
      · have := nodup_pos hn ha ha'
        omega
      · have := nodup_pos hn ha hc'
        have e : i = j + 2 := by omega
        subst e
        exact hshare j _ _ (hgd j hj.1) (hgd (j + 2) hi.1) hbj hbi
      · have := nodup_pos hn hc ha'
        have e : j = i + 2 := by omega
        subst e
        exact hshare i _ _ (hgd i hi.1) (hgd (i + 2) hj.1) hbi hbj
      · have := nodup_pos hn hc hc'
        omega
  obtain ⟨h', hok⟩ := (bends_ok_iff half h es hs hn).2 ⟨henc, hnn⟩
  obtain ⟨r1, r2, r3, r4⟩ := bends_result half h h' es hs hn hok
  have hmem : ∀ i e, es[i]? = some e → (.elem e ∈ (h'.line 0).seq ↔
        ¬ ((∃ b, es[i + 1]? = some b ∧ Bend h b) ∨ (i ≠ 0 ∧ ∃ b, es[i - 1]? = some b ∧ Bend h b))) := by
    intro i e he
    have hi : i < es.length := (List.getElem?_eq_some_iff.1 he).1
    rw [r1, List.mem_map_of_injective (fun _ _ h => by injection h), List.mem_filter]
    have hme := List.mem_of_getElem? he
    simp only [hme, true_and, decide_eq_true_eq]
    refine not_congr ?_
    rw [mem_neighbours]
    constructor
    · rintro ⟨j, hj, hb, hk⟩
      obtain ⟨a, c, f, h0, ha, hc, -, -, hf⟩ := hside j _ (hgd j hj) hb
      rcases hk with hk | hk
      · rw [hbef j h0, List.getD_eq_getElem?_getD, ha, Option.getD_some] at hk
        subst hk
        have := nodup_pos hn ha he
        left
        refine ⟨es.getD j 0, ?_, hb⟩
        rw [← hgd j hj]
        congr 1
        omega
      · rw [List.getD_eq_getElem?_getD, hc, Option.getD_some] at hk
        subst hk
        have := nodup_pos hn hc he
        right
        refine ⟨by omega, es.getD j 0, ?_, hb⟩
        rw [← hgd j hj]
        congr 1
        omega
    · rintro (⟨b, hb, hbend⟩ | ⟨h0, b, hb, hbend⟩)
      · have hl : i + 1 < es.length := (List.getElem?_eq_some_iff.1 hb).1
        have hx : es.getD (i + 1) 0 = b := by rw [List.getD_eq_getElem?_getD, hb]; rfl
        refine ⟨i + 1, hl, by rw [hx]; exact hbend, .inl ?_⟩
        rw [hbef _ (by omega), Nat.add_sub_cancel, List.getD_eq_getElem?_getD, he]
        rfl
      · have hl : i - 1 < es.length := (List.getElem?_eq_some_iff.1 hb).1
        have hx : es.getD (i - 1) 0 = b := by rw [List.getD_eq_getElem?_getD, hb]; rfl
        refine ⟨i - 1, hl, by rw [hx]; exact hbend, .inr ?_⟩
        rw [show i - 1 + 1 = i by omega, List.getD_eq_getElem?_getD, he]
        rfl
  refine ⟨h', hok, hmem, ?_, ?_⟩
  · rw [r1, hs]
    exact List.filter_sublist.map _
  · intro i b a c f hb hbend ha hc hf
    obtain ⟨a', c', f', h0, ha', hc', hna, hnc, -⟩ := hside i b hb hbend
    obtain ⟨a'', c'', f'', ha'', hc'', hf'', hkey⟩ := r4 i b hb hbend
    rw [hbef i h0, ha] at ha''
    rw [hc] at hc''
    injection ha'' with ha''
    injection hc'' with hc''
    subst ha'' hc''
    rw [hf.unique hf'']
    refine ⟨(hmem i b hb).2 ?_, hkey⟩
    rintro (⟨b', hb', hbend'⟩ | ⟨-, b', hb', hbend'⟩)
    · rw [hc'] at hb'
      injection hb' with hb'
      exact hnc (hb' ▸ hbend')
    · rw [ha'] at hb'
      injection hb' with hb'
      exact hna (hb' ▸ hbend')

/-- C130 is false for two bends with a common edge: the edge is removed twice. -/
theorem bends_shared_fails (half : R → R) (h : Heap R) (es : List Nat) (hs : (h.line 0).seq = es.map Item.elem) (hn : es.Nodup) (i a b : Nat)
    (ha : es[i]? = some a) (hb : es[i + 2]? = some b) (hba : Bend h a) (hbb : Bend h b) : ∃ e, handleBends half h = .error e := by
  cases hc : handleBends half h with
  | error e => exact ⟨e, rfl⟩
  | ok h' =>
    exfalso
    obtain ⟨-, hnn⟩ := (bends_ok_iff half h es hs hn).1 ⟨h', hc⟩
    unfold neighbours at hnn
    rw [List.nodup_flatMap] at hnn
    have hia : i < es.length := (List.getElem?_eq_some_iff.1 ha).1
    have hib : i + 2 < es.length := (List.getElem?_eq_some_iff.1 hb).1
    have hga : es.getD i 0 = a := by rw [List.getD_eq_getElem?_getD, ha]; rfl
    have hgb : es.getD (i + 2) 0 = b := by rw [List.getD_eq_getElem?_getD, hb]; rfl
    have hm1 : i ∈ (List.range es.length).filter fun i => Bend h (es.getD i 0) :=
      List.mem_filter.2 ⟨List.mem_range.2 hia, by rw [hga]; simpa using hba⟩
    have hm2 : i + 2 ∈ (List.range es.length).filter fun i => Bend h (es.getD i 0) :=
      List.mem_filter.2 ⟨List.mem_range.2 hib, by rw [hgb]; simpa using hbb⟩
    have hsym : Std.Symm (Function.onFun List.Disjoint fun i => [es.getD (before es.length i) 0, es.getD (i + 1) 0]) := ⟨fun _ _ h _ h1 h2 => h h2 h1⟩
    have hd := hnn.2.forall hm1 hm2 (by omega)
    refine hd (a := es.getD (i + 1) 0) (by simp) ?_
    unfold before
    simp only
    rw [if_neg (by omega)]
    simp

/-- C130 is false for a line that starts with a bend: the face angle, the gap and the fringe field integral come from the last element of the line, which disappears. -/
theorem bends_first_fails (half : R → R) (h h' : Heap R) (b e last : Nat) (es : List Nat) (hs : (h.line 0).seq = (b :: e :: es ++ [last]).map Item.elem)
    (hn : (b :: e :: es ++ [last]).Nodup) (hb : Bend h b) (hok : handleBends half h = .ok h') :
    Item.elem last ∉ (h'.line 0).seq ∧ ∃ f, HasFaces h last e f ∧ ∀ key, Params.getItem (h'.elem b).params key = faceItem half f (h.elem b).params key := by
  obtain ⟨r1, -, -, r4⟩ := bends_result half h h' _ hs hn hok
  obtain ⟨a, c, f, ha, hc, hf, hkey⟩ := r4 0 b (by simp) hb
  have hla : (b :: e :: es ++ [last])[before (b :: e :: es ++ [last]).length 0]? = some last := by
    unfold before
    rw [if_pos rfl, ← List.getLast?_eq_getElem?, List.getLast?_append]
    rfl
  rw [hla] at ha
  injection ha with ha
  have hc' : c = e := by
    have : (b :: e :: es ++ [last])[0 + 1]? = some e := by simp
    rw [this] at hc
    injection hc with hc
    exact hc.symm
  subst ha hc'
  refine ⟨?_, f, hf, hkey⟩
  rw [r1, List.mem_map_of_injective (fun _ _ h => by injection h), List.mem_filter]
  rintro ⟨-, hx⟩
  rw [decide_eq_true_eq] at hx
  refine hx (mem_neighbours.2 ⟨0, by simp, ?_, .inl ?_⟩)
  · exact hb
  · rw [List.getD_eq_getElem?_getD, hla]
    rfl

/-! ## Examples -/

/-- Edge, bend, edge, drift, edge, bend, edge. -/
def exBends : Heap Int := runOps (some "b".toList)
  [.addElement 0 "e1".toList "edge".toList [("BETA".toList, .num 1), ("G".toList, .num 8), ("K1".toList, .num 3)] false,
   .addElement 0 "b1".toList "sbend".toList [("ANGLE".toList, .num 30)] false,
   .addElement 0 "e2".toList "edge".toList [("BETA".toList, .num 2)] false,
   .addElement 0 "d1".toList "drift".toList [("L".toList, .num 20)] false,
   .addElement 0 "e3".toList "edge".toList [("BETA".toList, .num 5), ("G".toList, .num 6), ("K1".toList, .num 7)] false,
   .addElement 0 "b2".toList "sbend".toList [("ANGLE".toList, .num 40)] false,
   .addElement 0 "e4".toList "edge".toList [("BETA".toList, .num 4)] false]

/-- Two bends and the drift are left. -/
example : (handleBends (· / 2) exBends).toOption.map (fun h => ((h.line 0).seq, [1, 5].map fun k => (h.elem k).params)) =
    some ([1, 3, 5].map Item.elem,
      [[("angle".toList, .num 30), ("e1".toList, .num 1), ("e2".toList, .num 2), ("hgap".toList, .num 4), ("fint".toList, .num 3)],
       [("angle".toList, .num 40), ("e1".toList, .num 5), ("e2".toList, .num 4), ("hgap".toList, .num 3), ("fint".toList, .num 7)]]) := by decide +kernel

/-- The hypotheses of `bends_partial`. -/
example : ∃ h', handleBends (· / 2) exBends = .ok h' ∧ Item.elem 5 ∈ (h'.line 0).seq ∧
    Params.getItem (h'.elem 5).params "HGAP".toList = some (.num 3) := by
  have hbend : ∀ i b, [0, 1, 2, 3, 4, 5, 6][i]? = some b → Bend exBends b → (i = 1 ∧ b = 1) ∨ (i = 5 ∧ b = 5) := by
    intro i b hi hb
    have hl : i < 7 := (List.getElem?_eq_some_iff.1 hi).1
    have key : ∀ i < 7, Bend exBends ([0, 1, 2, 3, 4, 5, 6].getD i 0) → i = 1 ∨ i = 5 := by decide +kernel
    have hgd : [0, 1, 2, 3, 4, 5, 6].getD i 0 = b := by rw [List.getD_eq_getElem?_getD, hi]; rfl
    rcases key i hl (by rw [hgd]; exact hb) with rfl | rfl
    · exact .inl ⟨rfl, by simpa using hi.symm⟩
    · exact .inr ⟨rfl, by simpa using hi.symm⟩
  have f1 : HasFaces exBends 0 2 ⟨.num 1, .num 2, 8, .num 3⟩ := ⟨by decide +kernel, by decide +kernel, by decide +kernel, by decide +kernel⟩
  have f2 : HasFaces exBends 4 6 ⟨.num 5, .num 4, 6, .num 7⟩ := ⟨by decide +kernel, by decide +kernel, by decide +kernel, by decide +kernel⟩
  obtain ⟨h', h1, -, -, h2⟩ := bends_partial (· / 2) exBends [0, 1, 2, 3, 4, 5, 6] (by decide +kernel) (by decide)
    (by
      intro i b hi hb
      rcases hbend i b hi hb with ⟨rfl, rfl⟩ | ⟨rfl, rfl⟩
      · exact ⟨0, 2, _, by decide, rfl, rfl, by decide +kernel, by decide +kernel, f1⟩
      · exact ⟨4, 6, _, by decide, rfl, rfl, by decide +kernel, by decide +kernel, f2⟩)
    (by
      intro i a b ha hb hba hbb
      have h1 := hbend i a ha hba
      have h2 := hbend (i + 2) b hb hbb
      omega)
  obtain ⟨h3, h4⟩ := h2 5 5 4 6 _ rfl (by decide +kernel) rfl rfl f2
  exact ⟨h', h1, h3, (h4 _).trans (by decide +kernel)⟩

/-- Two bends share an edge. -/
def exShared : Heap Int := runOps (some "b".toList)
  [.addElement 0 "e1".toList "edge".toList [("BETA".toList, .num 1), ("G".toList, .num 8), ("K1".toList, .num 3)] false,
   .addElement 0 "b1".toList "sbend".toList [("ANGLE".toList, .num 30)] false,
   .addElement 0 "e2".toList "edge".toList [("BETA".toList, .num 2), ("G".toList, .num 8), ("K1".toList, .num 3)] false,
   .addElement 0 "b2".toList "sbend".toList [("ANGLE".toList, .num 40)] false,
   .addElement 0 "e4".toList "edge".toList [("BETA".toList, .num 4)] false]

example : ∃ e, handleBends (· / 2) exShared = .error e :=
  bends_shared_fails (· / 2) exShared [0, 1, 2, 3, 4] (by decide +kernel) (by decide) 1 1 3 rfl rfl (by decide +kernel) (by decide +kernel)

/-- A bend at the start and an edge at the end. -/
def exFirst : Heap Int := runOps (some "b".toList)
  [.addElement 0 "b1".toList "sbend".toList [("ANGLE".toList, .num 30)] false,
   .addElement 0 "e1".toList "edge".toList [("BETA".toList, .num 1)] false,
   .addElement 0 "d1".toList "drift".toList [("L".toList, .num 20)] false,
   .addElement 0 "e2".toList "edge".toList [("BETA".toList, .num 2), ("G".toList, .num 8), ("K1".toList, .num 3)] false]

example : ∃ h', handleBends (· / 2) exFirst = .ok h' ∧ Item.elem 3 ∉ (h'.line 0).seq := by
  obtain ⟨h', h1⟩ : ∃ h', handleBends (· / 2) exFirst = .ok h' := by
    cases hc : handleBends (· / 2) exFirst with
    | ok h' => exact ⟨h', rfl⟩
    | error e =>
      have : (handleBends (· / 2) exFirst).toOption.isSome = true := by decide +kernel
      rw [hc] at this
      cases this
  exact ⟨h', h1, (bends_first_fails (· / 2) exFirst h' 0 1 3 [2] (by decide +kernel) (by decide) (by decide +kernel) h1).1⟩

end Verif.Trace
