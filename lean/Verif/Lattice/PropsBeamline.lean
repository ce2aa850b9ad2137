import Mathlib.Algebra.Group.Int.Defs
import Mathlib.Tactic.FinCases
import Verif.Lattice.LemmasFlat

/-!
# Properties of beamlines (C22 to C26)

`runOps name ops` is the heap after any history of calls (`add_element`, `add_beamline`,
`edit_element`, on any beamline object that exists), starting with one new beamline, which is
object 0.
-/

namespace Verif.Lattice

variable {R : Type}

/-! ## C22 -/

/-- `get_beamline_elements` gives the list that the entries unfold to, for every beamline
object after every history; nesting never exceeds the number of beamlines, so it ends. -/
theorem elements_in_order (name : Option Str) (ops : List (Op R)) (l : Nat)
    (hl : l < (runOps name ops).nLine) :
    ∃ es, Unfolds (runOps name ops) ((runOps name ops).line l).seq es ∧
      ∀ fuel, (runOps name ops).nLine ≤ fuel → (runOps name ops).elementsOf fuel l = some es := by
  obtain ⟨es, hes⟩ := (run_wf name ops).elementsOf_some hl
  exact ⟨es, flatSeq_sound _ _ _ _ (hes _ (Nat.le_refl _)), hes⟩

/-- A history with two levels of nesting: `q, [d, [m], d], q`. -/
def exOps : List (Op Int) :=
  [.addElement 0 "q".toList "QUAD".toList [("L".toList, .num 3)] false,
   .addBeamline 0 (some "s".toList),
   .addElement 1 "d".toList "drift".toList [("l".toList, .num 5)] false,
   .addBeamline 1 (some "t".toList),
   .addElement 2 "m".toList "marker".toList [] false,
   .addElement 1 "d".toList "drift".toList [] false,
   .addElement 0 "q".toList "drift".toList [("L".toList, .num 100)] false]

/-- Three beamlines, elements that are used twice: the hypotheses of the theorems of C22 and C23. -/
example : ∃ es, Unfolds (runOps (some "top".toList) exOps) ((runOps (some "top".toList) exOps).line 1).seq es ∧
    ∀ fuel, 3 ≤ fuel → (runOps (some "top".toList) exOps).elementsOf fuel 1 = some es := by
  obtain ⟨es, h1, h2⟩ := elements_in_order (some "top".toList) exOps 1 (by decide +kernel)
  exact ⟨es, h1, fun fuel hf => h2 fuel (le_trans (by decide +kernel) hf)⟩

/-- The same for every heap, also one that was not built with these calls: if the generator
ends, it gives the unfolding, and it ends exactly when there is one. -/
theorem elements_iff (h : Heap R) (l : Nat) (es : List Nat) :
    (∃ fuel, h.elementsOf fuel l = some es) ↔ Unfolds h (h.line l).seq es := by
  constructor
  · rintro ⟨n, hn⟩
    exact flatSeq_sound h n _ _ hn
  · intro hu
    obtain ⟨n, hn⟩ := flatSeq_complete h hu
    exact ⟨n, hn n (Nat.le_refl _)⟩

/-- Replacing a nested beamline by its entries changes nothing. -/
theorem unfold_replace (h : Heap R) (s t : List Item) (k : Nat) (es : List Nat) :
    Unfolds h (s ++ .line k :: t) es ↔ Unfolds h (s ++ (h.line k).seq ++ t) es := by
  constructor
  · intro hu
    obtain ⟨as, bs, rfl, h1, h2⟩ := hu.split
    cases h2 with
    | line h3 h4 =>
      rw [← List.append_assoc]
      exact (h1.append h3).append h4
  · intro hu
    obtain ⟨ab, cs, rfl, h1, h2⟩ := hu.split
    obtain ⟨as, bs, rfl, h3, h4⟩ := h1.split
    rw [List.append_assoc]
    exact h3.append (.line h4 h2)

/-- A beamline of elements only lists them. -/
theorem unfold_elements (h : Heap R) (ids es : List Nat) : Unfolds h (ids.map .elem) es ↔ es = ids :=
  ⟨fun hu => hu.unique (unfolds_elems h ids), fun he => he ▸ unfolds_elems h ids⟩

example : ((runOps (some "top".toList) exOps).elementsOf 3 0).map
    (fun es => es.map fun e => ((runOps (some "top".toList) exOps).elem e).name) =
    some ["q".toList, "d".toList, "m".toList, "d".toList, "q".toList] := by decide +kernel

/-! ## C23 -/

/-- The length of a beamline is `v` exactly when its entries measure `v`: elements count with
their `L`, or 0, sub-beamlines with their own total. -/
theorem length_measures [AddMonoid R] (name : Option Str) (ops : List (Op R)) (l : Nat)
    (hl : l < (runOps name ops).nLine) (v : R) (fuel : Nat) (hf : (runOps name ops).nLine ≤ fuel) :
    (runOps name ops).length fuel l = some (.ok v) ↔
      Measures (runOps name ops) ((runOps name ops).line l).seq v := by
  obtain ⟨es, hu, hes⟩ := elements_in_order name ops l hl
  rw [measures_iff hu]
  unfold Heap.length
  rw [hes fuel hf]
  simp only [Option.map_some, Option.some.injEq]
  constructor
  · intro h
    obtain ⟨w, h1, h2⟩ := of_sumLength h
    rw [zero_add] at h2
    exact h2 ▸ h1
  · intro h
    have := sumLength_of h 0
    rw [zero_add] at this
    exact this

example : Measures (runOps (some "top".toList) exOps) ((runOps (some "top".toList) exOps).line 1).seq 10 :=
  (length_measures (some "top".toList) exOps 1 (by decide +kernel) 10 3 (by decide +kernel)).mp (by decide +kernel)

/-- The length is the sum over the flattened elements. -/
theorem length_flat [AddMonoid R] (name : Option Str) (ops : List (Op R)) (l : Nat)
    (hl : l < (runOps name ops).nLine) (v : R) (fuel : Nat) (hf : (runOps name ops).nLine ≤ fuel)
    (es : List Nat) (hes : (runOps name ops).elementsOf fuel l = some es) :
    (runOps name ops).length fuel l = some (.ok v) ↔ TotalLength (runOps name ops) es v := by
  rw [length_measures name ops l hl v fuel hf]
  exact measures_iff (flatSeq_sound _ _ _ _ hes) v

example : TotalLength (runOps (some "top".toList) exOps) [0, 1, 2, 1, 0] 16 :=
  (length_flat (some "top".toList) exOps 0 (by decide +kernel) 16 3 (by decide +kernel) _ (by decide +kernel)).mp (by decide +kernel)

/-- The length is defined unless some element has text as its `L`. -/
theorem length_defined [AddMonoid R] (name : Option Str) (ops : List (Op R)) (l : Nat)
    (hl : l < (runOps name ops).nLine) (fuel : Nat) (hf : (runOps name ops).nLine ≤ fuel)
    (hnum : ∀ e s, Params.getItem ((runOps name ops).elem e).params "L".toList ≠ some (.str s)) :
    ∃ v, (runOps name ops).length fuel l = some (.ok v) := by
  obtain ⟨es, _, hes⟩ := elements_in_order name ops l hl
  have : ∀ (es : List Nat) (len : R), ∃ v, sumLength (runOps name ops) es len = .ok v := by
    intro es
    induction es with
    | nil => intro len; exact ⟨len, rfl⟩
    | cons e es ih =>
      intro len
      simp only [sumLength, addLength]
      cases hg : Params.getItem ((runOps name ops).elem e).params "L".toList with
      | none => exact ih len
      | some p => cases p with
        | num v => exact ih (len + v)
        | str s => exact absurd hg (hnum e s)
  obtain ⟨v, hv⟩ := this es 0
  exact ⟨v, by unfold Heap.length; rw [hes fuel hf]; simp [hv]⟩

example : (runOps (some "top".toList) exOps).length 3 0 = some (.ok 16) := by decide +kernel

example : (runOps (some "top".toList) exOps).length 3 1 = some (.ok 10) := by decide +kernel

/-! ## C24 -/

/-- `edge` is the position of the first use in the top level beamline, for every element that
is in any beamline. -/
theorem edge_first_use [AddMonoid R] (name : Option Str) (ops : List (Op R)) (k e : Nat)
    (hk : k < (runOps name ops).nLine) (he : Item.elem e ∈ ((runOps name ops).line k).seq) :
    ∃ pre post, Unfolds (runOps name ops) ((runOps name ops).line 0).seq (pre ++ e :: post) ∧ e ∉ pre ∧
      ∀ v, TotalLength (runOps name ops) pre v → ∀ fuel, (runOps name ops).nLine ≤ fuel →
        (runOps name ops).edge fuel e = some (.ok v) := by
  have w := run_wf name ops
  obtain ⟨es, hu, hes⟩ := elements_in_order name ops 0 w.pos
  have hmem := w.elem_in_top hu hk he
  obtain ⟨pre, post, rfl, hpre⟩ := List.eq_append_cons_of_mem hmem
  refine ⟨pre, post, hu, hpre, ?_⟩
  intro v hv fuel hf
  unfold Heap.edge
  rw [w.etop e (w.elems k hk e he), hes fuel hf]
  simp only [Option.map_some]
  rw [sumEdge_of hpre hv, zero_add]

/-- Element 2 (`m`) is in beamline 2. -/
example : ∃ pre post, Unfolds (runOps (some "top".toList) exOps) ((runOps (some "top".toList) exOps).line 0).seq (pre ++ 2 :: post) ∧
    2 ∉ pre ∧ ∀ v, TotalLength (runOps (some "top".toList) exOps) pre v → ∀ fuel, (runOps (some "top".toList) exOps).nLine ≤ fuel →
      (runOps (some "top".toList) exOps).edge fuel 2 = some (.ok v) :=
  edge_first_use (some "top".toList) exOps 2 2 (by decide +kernel) (by decide +kernel)

/-- For an element used once in the whole beamline, `edge` is the distance from the start to
its upstream edge. Missing: elements used more than once, see `edge_repeated_fails`. -/
theorem edge_position_partial [AddMonoid R] (name : Option Str) (ops : List (Op R)) (e : Nat)
    (pre post : List Nat)
    (hu : Unfolds (runOps name ops) ((runOps name ops).line 0).seq (pre ++ e :: post))
    (hpre : e ∉ pre)
    (v : R) (hv : TotalLength (runOps name ops) pre v) (fuel : Nat) (hf : (runOps name ops).nLine ≤ fuel) :
    (runOps name ops).edge fuel e = some (.ok v) := by
  have w := run_wf name ops
  obtain ⟨es, hu', hes⟩ := elements_in_order name ops 0 w.pos
  have := hu'.unique hu
  subst this
  unfold Heap.edge
  rw [w.etop e (w.line_unfolds_lt w.pos hu e (by simp)), hes fuel hf]
  simp only [Option.map_some]
  rw [sumEdge_of hpre hv, zero_add]

example : (runOps (some "top".toList) exOps).edge 7 2 = some (.ok 8) := by
  have h1 : sumLength (runOps (some "top".toList) exOps) [0, 1] 0 = .ok 8 := by decide +kernel
  obtain ⟨v, hv, h2⟩ := of_sumLength h1
  rw [zero_add] at h2
  exact edge_position_partial _ _ 2 [0, 1] [1, 0] (flatSeq_sound _ 3 _ _ (by decide +kernel)) (by decide) 8 (h2 ▸ hv) 7 (by decide +kernel)

/-- For every element used twice with something of non-zero length between the two upstream
edges, `edge` is not the position of the second use. -/
theorem edge_repeated_fails [AddGroup R] (name : Option Str) (ops : List (Op R)) (e : Nat)
    (pre mid post : List Nat)
    (hu : Unfolds (runOps name ops) ((runOps name ops).line 0).seq (pre ++ e :: (mid ++ e :: post)))
    (hpre : e ∉ pre)
    (a d : R) (ha : TotalLength (runOps name ops) pre a)
    (hd : TotalLength (runOps name ops) (e :: mid) d) (hd0 : d ≠ 0)
    (fuel : Nat) (hf : (runOps name ops).nLine ≤ fuel) :
    TotalLength (runOps name ops) (pre ++ e :: mid) (a + d) ∧
      (runOps name ops).edge fuel e ≠ some (.ok (a + d)) := by
  refine ⟨ha.append hd, ?_⟩
  rw [edge_position_partial name ops e pre _ hu hpre a ha fuel hf]
  intro h
  simp only [Option.some.injEq, Except.ok.injEq] at h
  exact hd0 (by simpa using h.symm)

example : (runOps (some "top".toList) exOps).edge 3 2 = some (.ok 8) ∧
    (runOps (some "top".toList) exOps).edge 3 0 = some (.ok 0) := by decide +kernel

/-- The hypotheses of `edge_repeated_fails` hold for element 0 (`q`), used twice. -/
example : Unfolds (runOps (some "top".toList) exOps) ((runOps (some "top".toList) exOps).line 0).seq
      ([] ++ 0 :: ([1, 2, 1] ++ 0 :: [])) ∧
    TotalLength (runOps (some "top".toList) exOps) [] 0 ∧
    TotalLength (runOps (some "top".toList) exOps) (0 :: [1, 2, 1]) 13 := by
  refine ⟨flatSeq_sound _ 3 _ _ (by decide +kernel), .nil, ?_⟩
  have h1 : sumLength (runOps (some "top".toList) exOps) (0 :: [1, 2, 1]) 0 = .ok 13 := by decide +kernel
  obtain ⟨v, hv, h2⟩ := of_sumLength h1
  rw [zero_add] at h2
  exact h2 ▸ hv

/-! ## C25 -/

/-- Without `subline=True`: in one beamline object, uses of the same name are the same element
object, after every history. Missing: `subline=True`, see `subline_definitions_fails`. -/
theorem one_definition_partial (name : Option Str) (ops : List (Op R)) (hs : ∀ op ∈ ops, op.isSub = false)
    (l : Nat) (hl : l < (runOps name ops).nLine) (e1 e2 : Nat)
    (h1 : Item.elem e1 ∈ ((runOps name ops).line l).seq) (h2 : Item.elem e2 ∈ ((runOps name ops).line l).seq)
    (hn : ((runOps name ops).elem e1).name = ((runOps name ops).elem e2).name) : e1 = e2 := by
  have o := run_own name ops hs l hl
  have a := o e1 h1
  have b := o e2 h2
  rw [hn, b] at a
  exact (Option.some.inj a).symm

/-- The two uses of `q`, the second one added with another type. -/
example : ∀ e1 e2, Item.elem e1 ∈ ((runOps (some "top".toList) exOps).line 0).seq →
    Item.elem e2 ∈ ((runOps (some "top".toList) exOps).line 0).seq →
    ((runOps (some "top".toList) exOps).elem e1).name = ((runOps (some "top".toList) exOps).elem e2).name → e1 = e2 :=
  one_definition_partial _ exOps (by decide +kernel) 0 (by decide +kernel)

/-- A beamline without sub-beamlines behaves, after every history, as its user expects: the
names in the order of the calls, one definition per name, made by the first call and changed
by edits of any use. Missing: sub-beamlines. -/
theorem history_partial (name : Option Str) (ops : List (Op R)) (hp : ∀ op ∈ ops, op.plain) (fuel : Nat) :
    ∃ ids, (runOps name ops).elementsOf fuel 0 = some ids ∧
      ids.map (fun e => ((runOps name ops).elem e).name) = (ops.foldl Flat.step Flat.empty).names ∧
      ∀ e ∈ ids, ∃ d, (ops.foldl Flat.step Flat.empty).defs ((runOps name ops).elem e).name = some d ∧
        ((runOps name ops).elem e).type = d.type ∧
        ∀ k, Params.getItem ((runOps name ops).elem e).params k = d.param k := by
  have r := rel_run name ops hp
  obtain ⟨ids, hs, hn⟩ := r.seq
  refine ⟨ids, ?_, hn, ?_⟩
  · rw [elementsOf_eq, hs]
    clear hs hn
    induction ids with
    | nil => rfl
    | cons e ids ih => rw [List.map_cons, flatSeq_elem, ih]; rfl
  · intro e he
    have hd := r.own 0 r.wf.pos e (by rw [hs]; exact List.mem_map_of_mem he)
    refine ⟨defOf ((runOps name ops).elem e), ?_, rfl, fun _ => rfl⟩
    rw [r.defs, hd]
    rfl

/-- Two elements, a use of the first one again and an edit of it. -/
example : ∀ op ∈ ([.addElement 0 "q".toList "QUAD".toList [("L".toList, .num 3)] false, .addElement 0 "d".toList "drift".toList [] false,
    .addElement 0 "q".toList "drift".toList [] false, .editName 0 "q".toList ["l".toList] [.num 5]] : List (Op Int)), op.plain := by
  simp [Op.plain]

/-- Adding a name again uses the first definition. -/
theorem add_again (f : Flat R) (n t : Str) (ps : List (Str × PVal R)) (d : Def R) (hd : f.defs n = some d) :
    (f.step (.addElement 0 n t ps false)).defs n = some d := by
  simp [Flat.step, Flat.add, hd]

example : (runOps (some "top".toList) exOps).elementsOf 3 0 = some [0, 1, 2, 1, 0] ∧
    (runOps (some "top".toList) exOps).elem 0 = ⟨"q".toList, "quad".toList, [("l".toList, .num 3)], 0⟩ := by
  decide +kernel

/-- With `subline=True` one beamline object can hold two definitions of one name. -/
def exSubline : List (Op Int) :=
  [.addBeamline 0 (some "s".toList),
   .addElement 1 "q".toList "quad".toList [("L".toList, .num 3)] false,
   .addElement 0 "q".toList "drift".toList [("L".toList, .num 7)] true]

theorem subline_definitions_fails :
    ∃ (ops : List (Op Int)) (l e1 e2 : Nat), Item.elem e1 ∈ ((runOps none ops).line l).seq ∧
      Item.elem e2 ∈ ((runOps none ops).line l).seq ∧
      ((runOps none ops).elem e1).name = ((runOps none ops).elem e2).name ∧
      ((runOps none ops).elem e1).type ≠ ((runOps none ops).elem e2).type :=
  ⟨exSubline, 1, 0, 1, by decide +kernel⟩

/-! ## C26 -/

/-- After any sequence of assignments, reading under any spelling gives the last value that was
assigned under any spelling, and the old value if there was none. -/
theorem param_last_value (d : Params R) (pv : List (Str × PVal R)) (k : Str) :
    Params.getItem (pv.foldl (fun d kv => Params.setItem d kv.1 kv.2) d) k =
      match ((pv.filter fun kv => lower kv.1 = lower k).getLast?).map Prod.snd with
      | some v => some v
      | none => Params.getItem d k :=
  getItem_foldl pv d k

/-- Any two spellings that differ only in case read the same. -/
theorem param_spelling (d : Params R) (k k' : Str) (h : lower k = lower k') :
    Params.getItem d k = Params.getItem d k' := by
  unfold Params.getItem
  rw [h]

example : Params.getItem (Params.setItem (Params.setItem (Params.setItem [] "K1".toList (.num (1 : Int)))
    "l".toList (.num 2)) "k1".toList (.num 5)) "K1".toList = some (.num 5) := by decide +kernel

theorem toLower_idem (c : Char) : c.toLower.toLower = c.toLower := by
  by_cases h : 65 ≤ c.val.toNat ∧ c.val.toNat ≤ 90
  · obtain ⟨n, hn⟩ : ∃ n, c.toNat = n := ⟨_, rfl⟩
    have hc : c = Char.ofNat n := by rw [← hn]; exact (Char.ofNat_toNat c).symm
    have h1 : 65 ≤ n ∧ n < 91 := by
      have : c.val.toNat = c.toNat := rfl
      omega
    subst hc
    clear hn h
    have : ∀ m : Fin 26, (Char.ofNat (65 + m)).toLower.toLower = (Char.ofNat (65 + m)).toLower := by decide
    have := this ⟨n - 65, by omega⟩
    simp only at this
    rwa [show 65 + (n - 65) = n from by omega] at this
  · have : c.toLower = c := by
      unfold Char.toLower
      split_ifs with h1
      · exfalso
        apply h
        obtain ⟨h1, h2⟩ := h1
        have h1' := UInt32.le_iff_toNat_le.mp h1
        have h2' := UInt32.le_iff_toNat_le.mp h2
        exact ⟨h1', h2'⟩
      · rfl
    rw [this, this]

theorem lower_idem (s : Str) : lower (lower s) = lower s := by
  simp [lower, toLower_idem]

/-- `.get()` and `in` never find a name with an upper case letter, whatever was assigned. -/
theorem param_get_fails (pv : List (Str × PVal R)) (k : Str) (hk : lower k ≠ k) :
    Params.get (pv.foldl (fun d kv => Params.setItem d kv.1 kv.2) []) k = none ∧
    Params.contains (pv.foldl (fun d kv => Params.setItem d kv.1 kv.2) []) k = false := by
  have key : dget (pv.foldl (fun d kv => Params.setItem d kv.1 kv.2) ([] : Params R)) k = none := by
    induction pv using List.reverseRecOn with
    | nil => rfl
    | append_singleton pv q ih =>
      rw [List.foldl_append]
      simp only [List.foldl_cons, List.foldl_nil]
      rw [Params.setItem, dget_dset, if_neg, ih]
      intro he
      apply hk
      rw [he, lower_idem]
  exact ⟨key, by rw [Params.contains, key]; rfl⟩

example : lower "K1".toList ≠ "K1".toList ∧
    Params.getItem (Params.setItem [] "K1".toList (.num (1 : Int))) "K1".toList = some (.num 1) := by
  decide +kernel

end Verif.Lattice
