import Mathlib.Algebra.BigOperators.Group.List.Basic
import Mathlib.Algebra.Group.Basic
import Mathlib.Tactic.Abel
import Verif.Lattice.PropsBeamline
import Verif.Trace.Parser

/-!
# Cavities of TRACE 3-D beamlines (C37)
-/

namespace Verif.Trace

open Verif.Lattice

variable {R : Type}

/-! ## Single steps -/

/-- The type of cavities. -/
def cavType : Str := "rfca".toList

theorem pyIndex_map {es : List Nat} {i : Int} {it : Item} (h : pyIndex (es.map Item.elem) i = some it) :
    ∃ (n : Nat) (e : Nat), es[n]? = some e ∧ it = .elem e ∧ ((n : Int) = i ∨ (n : Int) = es.length + i ∧ i < 0) := by
  unfold pyIndex at h
  split at h
  · rename_i h0
    rw [List.getElem?_map] at h
    cases he : es[i.toNat]? with
    | none => rw [he] at h; exact absurd h (by simp)
    | some e =>
      rw [he] at h
      injection h with h
      exact ⟨i.toNat, e, he, h.symm, .inl (by omega)⟩
  · split at h
    · rename_i h0 h1
      rw [List.length_map] at h h1
      rw [List.getElem?_map] at h
      cases he : es[((es.length : Int) + i).toNat]? with
      | none => rw [he] at h; exact absurd h (by simp)
      | some e =>
        rw [he] at h
        injection h with h
        exact ⟨_, e, he, h.symm, .inr ⟨by omega, by omega⟩⟩
    · exact absurd h (by simp)

theorem paramAt_ok {h : Heap R} {es : List Nat} (hs : (h.line 0).seq = es.map Item.elem) {i : Int} {key : Str} {x : R}
    (hp : paramAt h i key = .ok x) :
    ∃ (n e : Nat), es[n]? = some e ∧ pyIndex (h.line 0).seq i = some (.elem e) ∧
      ((n : Int) = i ∨ (n : Int) = es.length + i ∧ i < 0) ∧ Params.getItem (h.elem e).params key = some (.num x) := by
  unfold paramAt at hp
  split at hp
  · exact absurd hp (by simp)
  · exact absurd hp (by simp)
  · rename_i e heq
    rw [hs] at heq
    obtain ⟨n, e', h1, h2, h3⟩ := pyIndex_map heq
    injection h2 with h2
    subst h2
    refine ⟨n, e, h1, by rw [hs, heq], h3, ?_⟩
    split at hp
    · exact absurd hp (by simp)
    · exact absurd hp (by simp)
    · rename_i y hy
      injection hp with hp
      rw [hy, hp]

/-- Assignment to the length of element `e`. -/
def setLen (h : Heap R) (e : Nat) (x : R) : Heap R :=
  h.setElem e { h.elem e with params := Params.setItem (h.elem e).params "L".toList (.num x) }

theorem editIndex_len {h : Heap R} {i : Int} {e : Nat} (hi : pyIndex (h.line 0).seq i = some (.elem e)) (x : R) :
    (h.editIndex 0 i ["L".toList] [.num x]).1 = setLen h e x := by
  unfold Heap.editIndex
  rw [if_neg (by simp), hi]
  rfl

theorem setLen_line (h : Heap R) (e : Nat) (x : R) : (setLen h e x).line = h.line := rfl

theorem setLen_type (h : Heap R) (e : Nat) (x : R) (k : Nat) : ((setLen h e x).elem k).type = (h.elem k).type := by
  unfold setLen Heap.setElem
  simp only
  split
  · rename_i hk; rw [hk]
  · rfl

theorem setLen_getItem (h : Heap R) (e : Nat) (x : R) (k : Nat) (key : Str) :
    Params.getItem ((setLen h e x).elem k).params key =
      if k = e ∧ "l".toList = lower key then some (.num x) else Params.getItem (h.elem k).params key := by
  unfold setLen Heap.setElem
  simp only
  by_cases hk : k = e
  · rw [if_pos hk]
    simp only
    rw [getItem_setItem, show lower "L".toList = "l".toList by decide]
    subst hk
    simp only [true_and]
  · rw [if_neg hk, if_neg (fun h => hk h.1)]

theorem mergeDrifts_ok [Zero R] [Add R] {h h' : Heap R} {es : List Nat} (hs : (h.line 0).seq = es.map Item.elem)
    {i c : Nat} (hc : es[i]? = some c) (hm : mergeDrifts h i = .ok h') :
    ∃ (m n ea eb : Nat) (a b : R), es[m]? = some ea ∧ es[n]? = some eb ∧
      ((m : Int) = i - 1 ∨ (m : Int) = es.length + ((i : Int) - 1) ∧ (i : Int) - 1 < 0) ∧ n = i + 1 ∧
      Params.getItem (h.elem ea).params "L".toList = some (.num a) ∧
      Params.getItem (h.elem eb).params "L".toList = some (.num b) ∧
      h' = setLen (setLen (setLen h ea 0) eb 0) c (a + b) := by
  unfold mergeDrifts at hm
  split at hm
  · exact absurd hm (by simp)
  · exact absurd hm (by simp)
  · rename_i a b ha hb
    obtain ⟨m, ea, h1, h2, h3, h4⟩ := paramAt_ok hs ha
    obtain ⟨n, eb, k1, k2, k3, k4⟩ := paramAt_ok hs hb
    refine ⟨m, n, ea, eb, a, b, h1, k1, h3, by omega, h4, k4, ?_⟩
    injection hm with hm
    rw [← hm]
    have k5 : pyIndex (h.line 0).seq (i : Int) = some (.elem c) := by
      rw [hs]
      unfold pyIndex
      rw [if_pos (by omega), Int.toNat_natCast, List.getElem?_map, hc]
      rfl
    rw [editIndex_len h2, editIndex_len (h := setLen h ea 0) k2, editIndex_len (h := setLen (setLen h ea 0) eb 0) k5]

/-! ## Length -/

theorem hasLength_iff [AddMonoid R] {x : Elem R} {v : R} :
    HasLength x v ↔ Params.getItem x.params "L".toList = some (.num v) ∨
      Params.getItem x.params "L".toList = none ∧ v = 0 := by
  unfold HasLength Params.getItem
  rw [show lower "L".toList = "l".toList by decide, dget_none_iff, dget_some_iff]
  exact Or.comm

theorem total_of_lens [AddMonoid R] {h : Heap R} {es : List Nat} (f : Nat → R)
    (hf : ∀ e ∈ es, HasLength (h.elem e) (f e)) : TotalLength h es (es.map f).sum := by
  induction es with
  | nil => exact .nil
  | cons e es ih => exact .cons (hf e (by simp)) (ih fun x hx => hf x (List.mem_cons_of_mem _ hx))

theorem lens_of_total [AddMonoid R] {h : Heap R} {es : List Nat} {v : R} (hv : TotalLength h es v) :
    ∃ f : Nat → R, ∀ e ∈ es, HasLength (h.elem e) (f e) := by
  have : ∀ e ∈ es, ∃ a, HasLength (h.elem e) a := by
    induction hv with
    | nil => simp
    | cons h1 _ ih =>
      intro e he
      rcases List.mem_cons.1 he with rfl | he
      · exact ⟨_, h1⟩
      · exact ih e he
  classical
  refine ⟨fun e => if he : e ∈ es then (this e he).choose else 0, ?_⟩
  intro e he
  simp only [dif_pos he]
  exact (this e he).choose_spec

theorem sum_update [AddCommGroup R] {es : List Nat} (hn : es.Nodup) (f : Nat → R) {e : Nat} (he : e ∈ es) (v : R) :
    (es.map (Function.update f e v)).sum = (es.map f).sum - f e + v := by
  induction es with
  | nil => exact absurd he (by simp)
  | cons d es ih =>
    rw [List.nodup_cons] at hn
    rw [List.map_cons, List.sum_cons, List.map_cons, List.sum_cons]
    by_cases hd : d = e
    · subst hd
      have : es.map (Function.update f d v) = es.map f := by
        apply List.map_congr_left
        intro x hx
        rw [Function.update_of_ne]
        rintro rfl
        exact hn.1 hx
      rw [this, Function.update_self]
      abel
    · have he' : e ∈ es := by
        rcases List.mem_cons.1 he with h | h
        · exact absurd h.symm hd
        · exact h
      rw [ih hn.2 he', Function.update_of_ne hd]
      abel

theorem setLen_lens [AddMonoid R] {h : Heap R} {es : List Nat} {f : Nat → R} (hf : ∀ e ∈ es, HasLength (h.elem e) (f e))
    (c : Nat) (x : R) : ∀ e ∈ es, HasLength ((setLen h c x).elem e) (Function.update f c x e) := by
  intro e he
  rw [hasLength_iff, setLen_getItem]
  by_cases hc : e = c
  · left
    rw [if_pos ⟨hc, by decide⟩, hc, Function.update_self]
  · rw [if_neg (fun h => hc h.1), Function.update_of_ne hc]
    exact hasLength_iff.1 (hf e he)

/-- Each element of a position occurs once. -/
theorem nodup_pos {es : List Nat} (hn : es.Nodup) {m n e : Nat} (hm : es[m]? = some e) (hn' : es[n]? = some e) : m = n := by
  obtain ⟨h1, h2⟩ := List.getElem?_eq_some_iff.1 hm
  obtain ⟨h3, h4⟩ := List.getElem?_eq_some_iff.1 hn'
  exact (hn.getElem_inj_iff).1 (h2.trans h4.symm)

theorem merge_length [AddCommGroup R] {h h' : Heap R} {es : List Nat} (hs : (h.line 0).seq = es.map Item.elem)
    (hn : es.Nodup) (h2 : es.length ≠ 2) {i c : Nat} (hc : es[i]? = some c)
    (hl : Params.getItem (h.elem c).params "L".toList = none) {v : R} (hv : TotalLength h es v)
    (hm : mergeDrifts h i = .ok h') : TotalLength h' es v := by
  obtain ⟨m, n, ea, eb, a, b, h3, h4, h5, h6, h7, h8, rfl⟩ := mergeDrifts_ok hs hc hm
  obtain ⟨f, hf⟩ := lens_of_total hv
  have hsum : v = (es.map f).sum := hv.unique (total_of_lens f hf)
  have hac : ea ≠ c := by rintro rfl; rw [h7] at hl; exact absurd hl (by simp)
  have hbc : eb ≠ c := by rintro rfl; rw [h8] at hl; exact absurd hl (by simp)
  have hi : i < es.length := (List.getElem?_eq_some_iff.1 hc).1
  have hnl : n < es.length := (List.getElem?_eq_some_iff.1 h4).1
  have hab : ea ≠ eb := by
    rintro rfl
    have := nodup_pos hn h3 h4
    omega
  have ma := List.mem_of_getElem? h3
  have mb := List.mem_of_getElem? h4
  have mc := List.mem_of_getElem? hc
  have fa : f ea = a := (hf ea ma).unique (hasLength_iff.2 (.inl h7))
  have fb : f eb = b := (hf eb mb).unique (hasLength_iff.2 (.inl h8))
  have fc : f c = 0 := (hf c mc).unique (hasLength_iff.2 (.inr ⟨hl, rfl⟩))
  have key := total_of_lens _ (setLen_lens (setLen_lens (setLen_lens hf ea 0) eb 0) c (a + b))
  rw [sum_update hn _ mc, sum_update hn _ mb, sum_update hn _ ma] at key
  rw [Function.update_of_ne (Ne.symm hbc), Function.update_of_ne (Ne.symm hac), Function.update_of_ne (Ne.symm hab), fa, fb, fc] at key
  rw [hsum]
  have e : (es.map f).sum - a + 0 - b + 0 - 0 + (a + b) = (es.map f).sum := by abel
  rw [e] at key
  exact key

/-! ## The loops -/

/-- Same beamline, types and parameters other than the length. -/
structure SameButLength (h h' : Heap R) : Prop where
  line : h'.line = h.line
  type : ∀ e, (h'.elem e).type = (h.elem e).type
  get : ∀ e key, lower key ≠ "l".toList → Params.getItem (h'.elem e).params key = Params.getItem (h.elem e).params key

theorem SameButLength.refl (h : Heap R) : SameButLength h h := ⟨rfl, fun _ => rfl, fun _ _ _ => rfl⟩

theorem SameButLength.trans {a b c : Heap R} (h1 : SameButLength a b) (h2 : SameButLength b c) : SameButLength a c :=
  ⟨h2.line.trans h1.line, fun e => (h2.type e).trans (h1.type e), fun e k hk => (h2.get e k hk).trans (h1.get e k hk)⟩

theorem SameButLength.setLen (h : Heap R) (e : Nat) (x : R) : SameButLength h (setLen h e x) :=
  ⟨rfl, setLen_type h e x, fun k key hk => by rw [setLen_getItem, if_neg (fun hh => hk hh.2.symm)]⟩

theorem merge_same [Zero R] [Add R] {h h' : Heap R} {es : List Nat} (hs : (h.line 0).seq = es.map Item.elem)
    {i c : Nat} (hc : es[i]? = some c) (hm : mergeDrifts h i = .ok h') : SameButLength h h' := by
  obtain ⟨_, _, ea, eb, a, b, _, _, _, _, _, _, rfl⟩ := mergeDrifts_ok hs hc hm
  exact ((SameButLength.setLen _ _ _).trans (.setLen _ _ _)).trans (.setLen _ _ _)

/-- One round of the first loop at a cavity. -/
theorem cavityLoop_cons [Zero R] [Add R] [Sub R] {ninety : R} {h : Heap R} {es : List Nat}
    (hs : (h.line 0).seq = es.map Item.elem) {i c : Nat} (hc : es[i]? = some c) (is cavs : List Nat) (phases : List R)
    {r : Heap R × List Nat × List R} (hr : cavityLoop ninety (i :: is) h cavs phases = .ok r) :
    ((h.elem c).type = cavType ∧ ∃ p h1, Params.getItem (h.elem c).params "phase".toList = some (.num p) ∧
      mergeDrifts h i = .ok h1 ∧ cavityLoop ninety is h1 (cavs ++ [i]) (phases ++ [ninety - p]) = .ok r) ∨
    (h.elem c).type ≠ cavType ∧ cavityLoop ninety is h cavs phases = .ok r := by
  have hi : (h.line 0).seq[i]? = some (.elem c) := by rw [hs, List.getElem?_map, hc]; rfl
  rw [cavityLoop, hi] at hr
  simp only at hr
  by_cases ht : (h.elem c).type = cavType
  · left
    refine ⟨ht, ?_⟩
    rw [cavType] at ht
    rw [if_pos ht] at hr
    split at hr
    · exact absurd hr (by simp)
    · rename_i p hp
      split at hr
      · exact absurd hr (by simp)
      · rename_i h1 hm
        refine ⟨p, h1, ?_, hm, hr⟩
        obtain ⟨n, e, h2, h3, h4, h5⟩ := paramAt_ok hs hp
        have : e = c := by
          rcases h4 with h4 | h4
          · have : n = i := by omega
            rw [this, hc] at h2
            injection h2 with h2
            exact h2.symm
          · omega
        rw [← this]
        exact h5
  · right
    have ht' := ht
    rw [cavType] at ht'
    rw [if_neg ht'] at hr
    exact ⟨ht, hr⟩

/-- The first loop keeps everything but lengths, and collects the cavities and their phases. -/
theorem cavityLoop_same [Zero R] [Add R] [Sub R] (ninety : R) (es : List Nat) (is : List Nat) (his : ∀ i ∈ is, i < es.length)
    (h : Heap R) (hs : (h.line 0).seq = es.map Item.elem) (cavs : List Nat) (phases : List R) (r : Heap R × List Nat × List R)
    (hr : cavityLoop ninety is h cavs phases = .ok r) :
    SameButLength h r.1 ∧ r.2.1 = cavs ++ is.filter (fun i => (h.elem (es.getD i 0)).type = cavType) ∧
      ∃ ps : List R, r.2.2 = phases ++ ps.map (fun p => ninety - p) ∧
        List.Forall₂ (fun i p => Params.getItem (h.elem (es.getD i 0)).params "phase".toList = some (.num p))
          (is.filter fun i => (h.elem (es.getD i 0)).type = cavType) ps := by
  induction is generalizing h cavs phases with
  | nil =>
    injection hr with hr
    subst hr
    exact ⟨.refl h, by simp, [], by simp, .nil⟩
  | cons i is ih =>
    have hi : i < es.length := his i (by simp)
    have hc : es[i]? = some (es.getD i 0) := by
      rw [List.getD_eq_getElem?_getD, List.getElem?_eq_getElem hi, Option.getD_some]
    have his' : ∀ j ∈ is, j < es.length := fun j hj => his j (List.mem_cons_of_mem _ hj)
    rcases cavityLoop_cons hs hc is cavs phases hr with ⟨ht, p, h1, hp, hm, hr'⟩ | ⟨ht, hr'⟩
    · have hsame := merge_same hs hc hm
      obtain ⟨k1, k2, ps, k3, k4⟩ := ih his' h1 (by rw [hsame.line]; exact hs) _ _ hr'
      have hf : (fun j => decide ((h1.elem (es.getD j 0)).type = cavType)) = fun j => decide ((h.elem (es.getD j 0)).type = cavType) := by
        funext j; rw [hsame.type]
      rw [hf] at k2 k4
      refine ⟨hsame.trans k1, ?_, p :: ps, ?_, ?_⟩
      · rw [k2, List.filter_cons_of_pos (by simpa using ht)]
        simp
      · rw [k3]; simp
      · rw [List.filter_cons_of_pos (by simpa using ht)]
        refine .cons hp (k4.imp ?_)
        intro j q hj
        rwa [hsame.get _ _ (by decide)] at hj
    · obtain ⟨k1, k2, ps, k3, k4⟩ := ih his' h hs _ _ hr'
      refine ⟨k1, ?_, ps, k3, ?_⟩
      · rw [k2, List.filter_cons_of_neg (by simpa using ht)]
      · rw [List.filter_cons_of_neg (by simpa using ht)]
        exact k4

theorem cavityLoop_length [AddCommGroup R] (ninety : R) (es : List Nat) (hn : es.Nodup) (h2 : es.length ≠ 2)
    (is : List Nat) (his : ∀ i ∈ is, i < es.length) (hnd : is.Nodup)
    (h : Heap R) (hs : (h.line 0).seq = es.map Item.elem)
    (hcav : ∀ i ∈ is, (h.elem (es.getD i 0)).type = cavType → Params.getItem (h.elem (es.getD i 0)).params "L".toList = none)
    {v : R} (hv : TotalLength h es v) (cavs : List Nat) (phases : List R) (r : Heap R × List Nat × List R)
    (hr : cavityLoop ninety is h cavs phases = .ok r) : TotalLength r.1 es v := by
  induction is generalizing h cavs phases with
  | nil =>
    injection hr with hr
    subst hr
    exact hv
  | cons i is ih =>
    have hi : i < es.length := his i (by simp)
    have hget : ∀ {j}, j < es.length → es[j]? = some (es.getD j 0) := by
      intro j hj
      rw [List.getD_eq_getElem?_getD, List.getElem?_eq_getElem hj, Option.getD_some]
    have hc := hget hi
    have his' : ∀ j ∈ is, j < es.length := fun j hj => his j (List.mem_cons_of_mem _ hj)
    rw [List.nodup_cons] at hnd
    rcases cavityLoop_cons hs hc is cavs phases hr with ⟨ht, p, h1, hp, hm, hr'⟩ | ⟨ht, hr'⟩
    · have hsame := merge_same hs hc hm
      have hl := hcav i (by simp) ht
      refine ih his' hnd.2 h1 (by rw [hsame.line]; exact hs) ?_ (merge_length hs hn h2 hc hl hv hm) _ _ hr'
      intro j hj hjt
      rw [hsame.type] at hjt
      have hjl := hcav j (List.mem_cons_of_mem _ hj) hjt
      obtain ⟨m, n, ea, eb, a, b, q1, q2, q3, q4, q5, q6, rfl⟩ := mergeDrifts_ok hs hc hm
      have ne1 : es.getD j 0 ≠ ea := by rintro rfl; rw [hjl] at q5; exact absurd q5 (by simp)
      have ne2 : es.getD j 0 ≠ eb := by rintro rfl; rw [hjl] at q6; exact absurd q6 (by simp)
      have ne3 : es.getD j 0 ≠ es.getD i 0 := by
        intro he
        have := nodup_pos hn (hget (his' j hj)) (he ▸ hc)
        exact hnd.1 (this ▸ hj)
      rw [setLen_getItem, if_neg (fun h => ne3 h.1), setLen_getItem, if_neg (fun h => ne2 h.1), setLen_getItem,
        if_neg (fun h => ne1 h.1), hjl]
    · exact ih his' hnd.2 h hs (fun j hj => hcav j (List.mem_cons_of_mem _ hj)) hv _ _ hr'

/-- The assignment of the phases at one position. -/
theorem editIndex_phase {h : Heap R} {es : List Nat} (hs : (h.line 0).seq = es.map Item.elem) {i : Nat} (hi : i < es.length)
    (phases : List R) {q : R} (hq : phases.getLast? = some q) :
    let h' := (h.editIndex 0 i (List.replicate phases.length "phase".toList) (phases.map .num)).1
    h'.line = h.line ∧ (∀ e, (h'.elem e).type = (h.elem e).type) ∧
      (∀ e key, Params.getItem (h'.elem e).params key =
        if e = es.getD i 0 ∧ lower key = "phase".toList then some (.num q) else Params.getItem (h.elem e).params key) := by
  have hzip : (List.replicate phases.length "phase".toList).zip (phases.map PVal.num) =
      phases.map fun p => ("phase".toList, PVal.num p) := by
    clear hq
    induction phases with
    | nil => rfl
    | cons p phases ih =>
      rw [List.length_cons, List.replicate_succ, List.map_cons, List.zip_cons_cons, ih, List.map_cons]
  have hne : (List.replicate phases.length "phase".toList).zip (phases.map PVal.num) ≠ [] := by
    rw [hzip]
    intro h
    rw [List.map_eq_nil_iff] at h
    rw [h] at hq
    exact absurd hq (by simp)
  have hidx : pyIndex (h.line 0).seq (i : Int) = some (.elem (es.getD i 0)) := by
    unfold pyIndex
    rw [if_pos (by omega), Int.toNat_natCast, hs, List.getElem?_map, List.getD_eq_getElem?_getD, List.getElem?_eq_getElem hi]
    rfl
  have hasg : ∀ key, assigned (phases.map fun p => ("phase".toList, PVal.num p)) key =
      if lower key = "phase".toList then some (PVal.num q) else none := by
    intro key
    unfold assigned
    rw [List.filter_map]
    by_cases hk : lower key = "phase".toList
    · rw [if_pos hk, List.filter_eq_self.2, List.getLast?_map, hq]
      · rfl
      · intro a _
        simp only [Function.comp_apply, hk, decide_eq_true_eq]
        decide
    · rw [if_neg hk, List.filter_eq_nil_iff.2]
      · rfl
      · intro a _
        simp only [Function.comp_apply, decide_eq_true_eq]
        intro he
        exact hk (he.symm.trans (by decide))
  simp only
  have hform : (h.editIndex 0 i (List.replicate phases.length "phase".toList) (phases.map .num)).1 =
      h.setElem (es.getD i 0) { h.elem (es.getD i 0) with
        params := (phases.map fun p => ("phase".toList, PVal.num p)).foldl (fun d kv => Params.setItem d kv.1 kv.2)
          (h.elem (es.getD i 0)).params } := by
    unfold Heap.editIndex
    rw [if_neg hne, hidx, hzip]
    rfl
  rw [hform]
  refine ⟨rfl, ?_, ?_⟩
  · intro e
    unfold Heap.setElem
    simp only
    split
    · rename_i he; rw [he]
    · rfl
  · intro e key
    unfold Heap.setElem
    simp only
    by_cases he : e = es.getD i 0
    · rw [if_pos he]
      simp only
      rw [getItem_foldl, hasg]
      by_cases hk : lower key = "phase".toList
      · rw [if_pos hk, if_pos ⟨he, hk⟩]
      · rw [if_neg hk, if_neg (fun h => hk h.2), he]
    · rw [if_neg he, if_neg (fun h => he h.1)]

theorem phaseLoop_spec (phases : List R) {q : R} (hq : phases.getLast? = some q) (es cavs : List Nat) (hcavs : ∀ i ∈ cavs, i < es.length)
    (h : Heap R) (hs : (h.line 0).seq = es.map Item.elem) :
    (phaseLoop phases cavs h).line = h.line ∧ (∀ e, ((phaseLoop phases cavs h).elem e).type = (h.elem e).type) ∧
      ∀ e key, Params.getItem ((phaseLoop phases cavs h).elem e).params key =
        if e ∈ cavs.map (fun i => es.getD i 0) ∧ lower key = "phase".toList then some (.num q)
        else Params.getItem (h.elem e).params key := by
  induction cavs generalizing h with
  | nil => exact ⟨rfl, fun _ => rfl, fun e key => by rw [if_neg (by simp)]; rfl⟩
  | cons i cavs ih =>
    obtain ⟨a1, a2, a3⟩ := editIndex_phase hs (hcavs i (by simp)) phases hq
    obtain ⟨b1, b2, b3⟩ := ih (fun j hj => hcavs j (List.mem_cons_of_mem _ hj)) _ (by rw [a1]; exact hs)
    rw [phaseLoop]
    refine ⟨b1.trans a1, fun e => (b2 e).trans (a2 e), ?_⟩
    intro e key
    rw [b3, a3]
    by_cases hk : lower key = "phase".toList
    · by_cases he : e ∈ cavs.map (fun i => es.getD i 0)
      · rw [if_pos ⟨he, hk⟩, if_pos ⟨by rw [List.map_cons]; exact List.mem_cons_of_mem _ he, hk⟩]
      · rw [if_neg (fun h => he h.1)]
        by_cases he' : e = es.getD i 0
        · rw [if_pos ⟨he', hk⟩, if_pos ⟨by rw [he']; simp, hk⟩]
        · rw [if_neg (fun h => he' h.1), if_neg]
          rintro ⟨hm, _⟩
          rw [List.map_cons] at hm
          rcases List.mem_cons.1 hm with hm | hm
          · exact he' hm
          · exact he hm
    · rw [if_neg (fun h => hk h.2), if_neg (fun h => hk h.2), if_neg (fun h => hk h.2)]

theorem forall₂_append {α β : Type} {r : α → β → Prop} {a b : List α} {c : List β} (h : List.Forall₂ r (a ++ b) c) :
    ∃ d e, List.Forall₂ r a d ∧ List.Forall₂ r b e ∧ c = d ++ e := by
  induction a generalizing c with
  | nil => exact ⟨[], c, .nil, h, rfl⟩
  | cons x a ih =>
    cases h with
    | cons h1 h2 =>
      obtain ⟨d, e, h3, h4, rfl⟩ := ih h2
      exact ⟨_ :: d, e, .cons h1 h3, h4, rfl⟩

/-! ## C37 -/

/-- C37, the part on lengths. `es` are the elements of the beamline, which has no sub-beamlines;
no element is used twice, cavities have no length of their own, and there are not exactly two
elements. Then merging drifts into cavities preserves the total length. -/
theorem cavity_length_partial [AddCommGroup R] (ninety : R) (h h' : Heap R) (es : List Nat)
    (hs : (h.line 0).seq = es.map Item.elem) (hn : es.Nodup) (h2 : es.length ≠ 2)
    (hcav : ∀ e ∈ es, (h.elem e).type = "rfca".toList → Params.getItem (h.elem e).params "L".toList = none)
    {v : R} (hv : TotalLength h es v) (hok : handleCavities ninety h = .ok h') :
    (h'.line 0).seq = es.map Item.elem ∧ TotalLength h' es v := by
  unfold handleCavities at hok
  split at hok
  · exact absurd hok (by simp)
  rename_i h1 cavs phases hr
  injection hok with hok
  have his : ∀ i ∈ List.range (h.line 0).seq.length, i < es.length := by
    intro i hi
    rw [List.mem_range, hs, List.length_map] at hi
    exact hi
  have hlen := cavityLoop_length ninety es hn h2 _ his List.nodup_range h hs (by
    intro i hi
    refine hcav _ ?_
    have := his i hi
    rw [List.getD_eq_getElem?_getD, List.getElem?_eq_getElem this, Option.getD_some]
    exact List.getElem_mem this) hv [] [] _ hr
  obtain ⟨c1, c2, ps, c3, c4⟩ := cavityLoop_same ninety es _ his h hs [] [] _ hr
  simp only [List.nil_append] at c1 c2 c3 c4 hlen
  have hs1 : (h1.line 0).seq = es.map Item.elem := by rw [c1.line]; exact hs
  have hcavs : ∀ i ∈ cavs, i < es.length := by
    intro i hi
    rw [c2] at hi
    exact his i (List.mem_of_mem_filter hi)
  rw [← hok]
  cases hq : phases.getLast? with
  | none =>
    have hp : phases = [] := by simpa using hq
    have hps : ps = [] := by rw [hp] at c3; exact List.map_eq_nil_iff.1 c3.symm
    rw [hps] at c4
    have : cavs = [] := by rw [c2]; exact List.forall₂_nil_right_iff.1 c4
    rw [this]
    exact ⟨hs1, hlen⟩
  | some q =>
    obtain ⟨d1, d2, d3⟩ := phaseLoop_spec phases hq es cavs hcavs h1 hs1
    refine ⟨by rw [d1]; exact hs1, ?_⟩
    obtain ⟨f, hf⟩ := lens_of_total hlen
    rw [hlen.unique (total_of_lens f hf)]
    refine total_of_lens f fun e he => hasLength_iff.2 ?_
    rw [d3, if_neg (fun h => absurd h.2 (by decide))]
    exact hasLength_iff.1 (hf e he)

/-- Cavities of the beamline. -/
def Cavity (h : Heap R) (e : Nat) : Prop := (h.elem e).type = "rfca".toList

/-- All cavities end with the phase computed from the last cavity. -/
theorem cavity_phase_last [Zero R] [Add R] [Sub R] (ninety : R) (h h' : Heap R) (pre post : List Nat) (last : Nat)
    (hs : (h.line 0).seq = (pre ++ last :: post).map Item.elem) (hlast : Cavity h last) (hpost : ∀ e ∈ post, ¬ Cavity h e)
    (hok : handleCavities ninety h = .ok h') :
    ∃ p, Params.getItem (h.elem last).params "phase".toList = some (.num p) ∧
      ∀ e ∈ pre ++ last :: post, Cavity h e → Params.getItem (h'.elem e).params "phase".toList = some (.num (ninety - p)) := by
  generalize hes : pre ++ last :: post = es at hs ⊢
  unfold handleCavities at hok
  split at hok
  · exact absurd hok (by simp)
  rename_i h1 cavs phases hr
  injection hok with hok
  have his : ∀ i ∈ List.range (h.line 0).seq.length, i < es.length := by
    intro i hi
    rw [List.mem_range, hs, List.length_map] at hi
    exact hi
  obtain ⟨c1, c2, ps, c3, c4⟩ := cavityLoop_same ninety es _ his h hs [] [] _ hr
  simp only [List.nil_append] at c1 c2 c3 c4
  have hrange : List.range (h.line 0).seq.length = (List.range pre.length ++ [pre.length]) ++
      (List.range post.length).map fun j => pre.length + 1 + j := by
    rw [hs, List.length_map, ← hes, List.length_append, List.length_cons,
      show pre.length + (post.length + 1) = pre.length + 1 + post.length by omega, List.range_add, List.range_succ]
  have hgl : es.getD pre.length 0 = last := by
    rw [← hes]; simp
  have hfilter : (List.range (h.line 0).seq.length).filter (fun i => decide ((h.elem (es.getD i 0)).type = cavType)) =
      (List.range pre.length).filter (fun i => decide ((h.elem (es.getD i 0)).type = cavType)) ++ [pre.length] := by
    rw [hrange, List.filter_append, List.filter_append]
    rw [List.filter_cons_of_pos (by rw [hgl]; exact decide_eq_true hlast)]
    rw [List.filter_eq_nil_iff (l := (List.range post.length).map fun j => pre.length + 1 + j) |>.2]
    · simp
    · intro i hi
      obtain ⟨j, hj, rfl⟩ := List.mem_map.1 hi
      rw [List.mem_range] at hj
      have : es.getD (pre.length + 1 + j) 0 = post[j] := by
        rw [← hes, List.getD_eq_getElem?_getD, List.getElem?_append_right (by omega),
          show pre.length + 1 + j - pre.length = j + 1 by omega, List.getElem?_cons_succ, List.getElem?_eq_getElem hj, Option.getD_some]
      rw [this]
      have := hpost _ (List.getElem_mem hj)
      exact fun hh => this (show (h.elem post[j]).type = cavType from of_decide_eq_true hh)
  rw [hfilter] at c4 c2
  obtain ⟨ps1, ps2, hf1, hf2, hpeq⟩ := forall₂_append c4
  cases hf2 with
  | cons hp hnil =>
    rename_i p ps3
    cases hnil
    rw [hgl] at hp
    refine ⟨p, hp, ?_⟩
    intro e he hec
    have hq : phases.getLast? = some (ninety - p) := by
      rw [c3, hpeq, List.map_append, List.map_cons, List.map_nil, List.getLast?_append]
      rfl
    have hcavs : ∀ i ∈ cavs, i < es.length := by
      intro i hi
      rw [c2, ← hfilter] at hi
      exact his i (List.mem_of_mem_filter hi)
    obtain ⟨_, _, d3⟩ := phaseLoop_spec phases hq es cavs hcavs h1 (by rw [c1.line]; exact hs)
    rw [← hok, d3, if_pos]
    refine ⟨?_, by decide⟩
    obtain ⟨i, hi, rfl⟩ := List.getElem_of_mem he
    rw [List.mem_map]
    have hgi : es.getD i 0 = es[i] := by
      rw [List.getD_eq_getElem?_getD, List.getElem?_eq_getElem hi, Option.getD_some]
    refine ⟨i, ?_, hgi⟩
    rw [c2, ← hfilter, List.mem_filter, List.mem_range, hs, List.length_map]
    refine ⟨hi, ?_⟩
    rw [hgi]
    exact decide_eq_true hec

theorem last_cavity (h : Heap R) (es : List Nat) (hex : ∃ e ∈ es, Cavity h e) :
    ∃ pre last post, es = pre ++ last :: post ∧ Cavity h last ∧ ∀ e ∈ post, ¬ Cavity h e := by
  induction es with
  | nil => obtain ⟨e, he, _⟩ := hex; exact absurd he (by simp)
  | cons x es ih =>
    by_cases hes : ∃ e ∈ es, Cavity h e
    · obtain ⟨pre, last, post, rfl, h1, h2⟩ := ih hes
      exact ⟨x :: pre, last, post, rfl, h1, h2⟩
    · obtain ⟨e, he, hec⟩ := hex
      rcases List.mem_cons.1 he with rfl | he
      · exact ⟨[], e, es, rfl, hec, fun y hy hyc => hes ⟨y, hy, hyc⟩⟩
      · exact absurd ⟨e, he, hec⟩ hes

/-- C37, the part on phases, for cavities of equal phases: each cavity gets the phase computed from
its own. Missing: different phases, see `cavity_phase_fails`. -/
theorem cavity_phase_partial [Zero R] [Add R] [Sub R] (ninety : R) (h h' : Heap R) (es : List Nat)
    (hs : (h.line 0).seq = es.map Item.elem) (p : R)
    (hp : ∀ e ∈ es, Cavity h e → Params.getItem (h.elem e).params "phase".toList = some (.num p))
    (hok : handleCavities ninety h = .ok h') :
    ∀ e ∈ es, Cavity h e → Params.getItem (h'.elem e).params "phase".toList = some (.num (ninety - p)) := by
  intro e he hec
  obtain ⟨pre, last, post, rfl, h1, h2⟩ := last_cavity h es ⟨e, he, hec⟩
  obtain ⟨q, hq, hall⟩ := cavity_phase_last ninety h h' pre post last hs h1 h2 hok
  have : p = q := by
    have := hp last (by simp) h1
    rw [hq] at this
    injection this with this
    injection this with this
    exact this.symm
  rw [this]
  exact hall e he hec

/-- C37 fails for all beamlines with two cavities of different phases: one of them does not have
the phase computed from its own. -/
theorem cavity_phase_fails [AddCommGroup R] (ninety : R) (h h' : Heap R) (es : List Nat)
    (hs : (h.line 0).seq = es.map Item.elem) (c d : Nat) (hc : c ∈ es) (hd : d ∈ es) (hcc : Cavity h c) (hdc : Cavity h d)
    (p q : R) (hp : Params.getItem (h.elem c).params "phase".toList = some (.num p))
    (hq : Params.getItem (h.elem d).params "phase".toList = some (.num q)) (hne : p ≠ q)
    (hok : handleCavities ninety h = .ok h') :
    Params.getItem (h'.elem c).params "phase".toList = Params.getItem (h'.elem d).params "phase".toList ∧
      ¬ (Params.getItem (h'.elem c).params "phase".toList = some (.num (ninety - p)) ∧
        Params.getItem (h'.elem d).params "phase".toList = some (.num (ninety - q))) := by
  obtain ⟨pre, last, post, rfl, h1, h2⟩ := last_cavity h es ⟨c, hc, hcc⟩
  obtain ⟨r, _, hall⟩ := cavity_phase_last ninety h h' pre post last hs h1 h2 hok
  rw [hall c hc hcc, hall d hd hdc]
  refine ⟨rfl, ?_⟩
  rintro ⟨e1, e2⟩
  injection e1 with e1
  injection e1 with e1
  injection e2 with e2
  injection e2 with e2
  exact hne (sub_right_injective (e1.symm.trans e2))

/-! ## Examples -/

/-- drift, cavity, drift, cavity, drift. -/
def exCavities : Heap Int := runOps (some "b".toList)
  [.addElement 0 "d1".toList "drift".toList [("L".toList, .num 10)] false,
   .addElement 0 "c1".toList "rfca".toList [("PHASE".toList, .num 30)] false,
   .addElement 0 "d2".toList "drift".toList [("L".toList, .num 20)] false,
   .addElement 0 "c2".toList "rfca".toList [("PHASE".toList, .num 50)] false,
   .addElement 0 "d3".toList "drift".toList [("L".toList, .num 40)] false]

example : (exCavities.line 0).seq = [0, 1, 2, 3, 4].map Item.elem := by decide +kernel

/-- The hypotheses of the theorems hold for this beamline: lengths and phases afterwards. -/
example : (handleCavities 90 exCavities).toOption.map (fun h => [0, 1, 2, 3, 4].map fun e =>
    (Params.getItem (h.elem e).params "l".toList, Params.getItem (h.elem e).params "phase".toList)) =
    some [(some (.num 0), none), (some (.num 30), some (.num 40)), (some (.num 0), none), (some (.num 40), some (.num 40)),
      (some (.num 0), none)] := by decide +kernel

example : TotalLength exCavities [0, 1, 2, 3, 4] 70 := by
  obtain ⟨v, h1, h2⟩ := of_sumLength (show sumLength exCavities [0, 1, 2, 3, 4] 0 = .ok 70 by decide +kernel)
  rw [zero_add] at h2
  exact h2 ▸ h1

example : ∀ e ∈ [0, 1, 2, 3, 4], (exCavities.elem e).type = "rfca".toList →
    Params.getItem (exCavities.elem e).params "L".toList = none := by decide +kernel

/-- With two elements the length of the drift counts twice. -/
example : (handleCavities 90 (runOps (some "b".toList)
    [.addElement 0 "c1".toList "rfca".toList [("PHASE".toList, .num 30)] false,
     .addElement 0 "d1".toList "drift".toList [("L".toList, .num 10)] false])).toOption.map
      (fun h => sumLength h [0, 1] 0) = some (.ok 20) := by decide +kernel

end Verif.Trace
