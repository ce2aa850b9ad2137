import Verif.Lattice.LemmasFlat
import Verif.Lattice.PropsBeamline
import Verif.Lattice.Yaml

/-! # Lemmas on saving and loading -/

namespace Verif.Lattice

variable {R : Type}

/-- Stored parameters: keys in lower case, each once. -/
def Norm (p : Params R) : Prop := (p.map Prod.fst).Nodup ∧ ∀ kv ∈ p, lower kv.1 = kv.1

theorem keys_dset {K V : Type} [DecidableEq K] (d : Dict K V) (k : K) (v : V) (x : K) :
    x ∈ (dset d k v).map Prod.fst ↔ x = k ∨ x ∈ d.map Prod.fst := by
  induction d with
  | nil => simp [dset]
  | cons p d ih =>
    unfold dset
    split_ifs with h
    · simp [h]
    · simp only [List.map_cons, List.mem_cons, ih]
      tauto

theorem nodup_dset {K V : Type} [DecidableEq K] (d : Dict K V) (k : K) (v : V)
    (hd : (d.map Prod.fst).Nodup) : ((dset d k v).map Prod.fst).Nodup := by
  induction d with
  | nil => simp [dset]
  | cons p d ih =>
    unfold dset
    simp only [List.map_cons, List.nodup_cons] at hd
    split_ifs with h
    · simp only [List.map_cons, List.nodup_cons]
      exact h ▸ hd
    · simp only [List.map_cons, List.nodup_cons]
      refine ⟨?_, ih hd.2⟩
      rw [keys_dset]
      rintro (h1 | h1)
      · exact h h1
      · exact hd.1 h1

theorem dset_new {K V : Type} [DecidableEq K] (d : Dict K V) (k : K) (v : V)
    (hk : k ∉ d.map Prod.fst) : dset d k v = d ++ [(k, v)] := by
  induction d with
  | nil => rfl
  | cons p d ih =>
    unfold dset
    simp only [List.map_cons, List.mem_cons, not_or] at hk
    rw [if_neg (fun h => hk.1 h.symm), ih hk.2]
    rfl

theorem foldl_dset_new {K V : Type} [DecidableEq K] (p : Dict K V) (d : Dict K V)
    (hp : (p.map Prod.fst).Nodup) (hd : ∀ k ∈ p.map Prod.fst, k ∉ d.map Prod.fst) :
    p.foldl (fun d kv => dset d kv.1 kv.2) d = d ++ p := by
  induction p generalizing d with
  | nil => simp
  | cons q p ih =>
    simp only [List.map_cons, List.nodup_cons] at hp
    rw [List.foldl_cons, dset_new d q.1 q.2 (hd q.1 (by simp)), ih _ hp.2]
    · simp
    · intro k hk
      simp only [List.map_append, List.map_cons, List.map_nil, List.mem_append, List.mem_singleton, not_or]
      exact ⟨hd k (by simp [hk]), fun h => hp.1 (h ▸ hk)⟩

theorem norm_nil : Norm ([] : Params R) := ⟨by simp, by simp⟩

theorem Norm.setItem {p : Params R} (hp : Norm p) (k : Str) (v : PVal R) : Norm (Params.setItem p k v) := by
  refine ⟨nodup_dset _ _ _ hp.1, ?_⟩
  intro kv hkv
  rcases mem_dset _ _ _ _ hkv with h | h
  · rw [h]; exact lower_idem k
  · exact hp.2 kv h

theorem Norm.foldl {p : Params R} (hp : Norm p) (pv : List (Str × PVal R)) :
    Norm (pv.foldl (fun d kv => Params.setItem d kv.1 kv.2) p) := by
  induction pv generalizing p with
  | nil => exact hp
  | cons q pv ih => exact ih (hp.setItem _ _)

theorem dget_eq_of_mem {K V : Type} [DecidableEq K] {d : Dict K V} (hd : (d.map Prod.fst).Nodup) {k : K} {v : V}
    (h : (k, v) ∈ d) : dget d k = some v := by
  induction d with
  | nil => simp at h
  | cons p d ih =>
    rw [dget_cons]
    simp only [List.map_cons, List.nodup_cons] at hd
    rcases List.mem_cons.mp h with h | h
    · rw [← h]; simp
    · rw [if_neg, ih hd.2 h]
      intro hpk
      exact hd.1 (hpk ▸ List.mem_map_of_mem (f := Prod.fst) h)

theorem assigned_norm {p : Params R} (hp : Norm p) (k : Str) : assigned p k = Params.getItem p k := by
  unfold Params.getItem
  cases hd : dget p (lower k) with
  | none =>
    have h1 := (dget_none_iff _ _).mp hd
    have : p.filter (fun kv => lower kv.1 = lower k) = [] := by
      rw [List.filter_eq_nil_iff]
      intro kv hkv
      simp only [decide_eq_true_eq]
      rw [hp.2 kv hkv]
      exact h1 kv hkv
    unfold assigned
    rw [this]
    rfl
  | some v =>
    have h1 := mem_of_dget hd
    have hall : ∀ kv ∈ p.filter (fun kv => lower kv.1 = lower k), kv = (lower k, v) := by
      intro kv hkv
      rw [List.mem_filter] at hkv
      obtain ⟨h2, h3⟩ := hkv
      simp only [decide_eq_true_eq] at h3
      rw [hp.2 kv h2] at h3
      have h4 := dget_eq_of_mem hp.1 (k := kv.1) (v := kv.2) h2
      rw [h3, hd] at h4
      cases kv
      simp only at h3 h4 ⊢
      rw [h3, Option.some.inj h4]
    unfold assigned
    cases hl : (p.filter fun kv => lower kv.1 = lower k).getLast? with
    | none =>
      rw [List.getLast?_eq_none_iff] at hl
      have : (lower k, v) ∈ p.filter (fun kv => lower kv.1 = lower k) := by
        rw [List.mem_filter]
        exact ⟨h1, by simp [lower_idem]⟩
      rw [hl] at this
      simp at this
    | some q =>
      rw [hall q (List.mem_of_getLast? hl)]
      rfl

/-! ## Types -/

theorem strip_idem (s : Str) : strip (strip s) = strip s := by
  unfold strip
  have h1 : ∀ t : Str, (t.dropWhile isSpace).dropWhile isSpace = t.dropWhile isSpace := by
    intro t
    induction t with
    | nil => rfl
    | cons c t ih =>
      rw [List.dropWhile_cons]
      split_ifs with h
      · exact ih
      · rw [List.dropWhile_cons, if_neg h]
  have h2 : ∀ t : Str, t.head?.all (fun c => !isSpace c) = true → t.dropWhile isSpace = t := by
    intro t ht
    cases t with
    | nil => rfl
    | cons c t =>
      simp only [List.head?_cons, Option.all_some] at ht
      rw [List.dropWhile_cons, if_neg (by simpa using ht)]
  set a := s.dropWhile isSpace with ha
  have ha' : a.dropWhile isSpace = a := h1 s
  have hhead : a.head?.all (fun c => !isSpace c) = true := by
    cases hh : a with
    | nil => rfl
    | cons c t =>
      rw [hh, List.dropWhile_cons] at ha'
      split_ifs at ha' with hc
      · exfalso
        have := congrArg List.length ha'
        have h3 := (List.dropWhile_suffix (p := isSpace) (l := t)).length_le
        simp only [List.length_cons] at this
        omega
      · simpa using hc
  set b := (a.reverse.dropWhile isSpace).reverse with hb
  have hbh : b.head?.all (fun c => !isSpace c) = true := by
    obtain ⟨t, ht⟩ := List.dropWhile_suffix (p := isSpace) (l := a.reverse)
    have : a = b ++ t.reverse := by
      have := congrArg List.reverse ht
      simp only [List.reverse_append, List.reverse_reverse] at this
      rw [hb, this]
    cases hbb : b with
    | nil => rfl
    | cons c u =>
      rw [this, hbb] at hhead
      simpa using hhead
  rw [h2 b hbh, hb, List.reverse_reverse, h1]

theorem strip_mem (s : Str) : ∀ c ∈ strip s, c ∈ s := by
  intro c hc
  unfold strip at hc
  rw [List.mem_reverse] at hc
  have h1 := (List.dropWhile_suffix (p := isSpace)).subset hc
  rw [List.mem_reverse] at h1
  exact (List.dropWhile_suffix (p := isSpace)).subset h1

theorem type_idem (t : Str) : strip (lower (strip (lower t))) = strip (lower t) := by
  have h : lower (strip (lower t)) = strip (lower t) := by
    have : ∀ c ∈ strip (lower t), c.toLower = c := by
      intro c hc
      have h1 := strip_mem _ c hc
      obtain ⟨d, _, rfl⟩ := List.mem_map.mp h1
      exact toLower_idem d
    have h2 : ∀ u : Str, (∀ c ∈ u, c.toLower = c) → lower u = u := by
      intro u hu
      unfold lower
      rw [List.map_congr_left hu]
      exact List.map_id u
    exact h2 _ this
  rw [h, strip_idem]

/-! ## The invariant -/

/-- All elements are stored in normal form. -/
def Heap.Normal (h : Heap R) : Prop :=
  ∀ e < h.nElem, Norm (h.elem e).params ∧ strip (lower (h.elem e).type) = (h.elem e).type

theorem editItem_norm (h : Heap R) (pv : List (Str × PVal R)) (i : Item) (k : Nat)
    (hk : Norm (h.elem k).params) : Norm ((h.editItem pv i).1.elem k).params := by
  cases i with
  | elem e =>
    simp only [Heap.editItem, Heap.setElem]
    split_ifs with he
    · subst he; exact hk.foldl pv
    · exact hk
  | line l => simp only [Heap.editItem]; split_ifs <;> exact hk

theorem editItems_norm (pv : List (Str × PVal R)) (is : List Item) (h : Heap R) (k : Nat)
    (hk : Norm (h.elem k).params) : Norm ((Heap.editItems pv is h).1.elem k).params := by
  induction is generalizing h with
  | nil => exact hk
  | cons i is ih =>
    have h1 := editItem_norm h pv i k hk
    simp only [Heap.editItems]
    split
    · rename_i h' heq
      rw [heq] at h1
      exact ih h' h1
    · rename_i h' e heq
      rw [heq] at h1
      exact h1

theorem normal_step {h : Heap R} (w : h.WF) (n : h.Normal) (op : Op R) : (h.step op).Normal := by
  unfold Heap.step
  split_ifs with ht
  · cases op with
    | addElement l nm t ps s =>
      simp only
      unfold Heap.addElement
      cases hu : h.useElement l nm t ps with
      | error err => exact n
      | ok r =>
        obtain ⟨h1, e⟩ := r
        have u : Used h l nm t ps h1 e := used_of w ht hu
        have n1 : h1.Normal := by
          intro k hk
          rcases u.first with ⟨_, h2⟩ | ⟨_, h3, h4, h5⟩
          · rw [h2] at hk ⊢; exact n k hk
          · by_cases hke : k = e
            · subst hke
              rw [h5]
              exact ⟨norm_nil.foldl ps, type_idem t⟩
            · have : k < h.nElem := by omega
              rw [u.old k this]
              exact n k this
        have n2 : (h1.setElem e { h1.elem e with top := (h1.line l).top }).Normal := by
          intro k hk
          simp only [Heap.setElem]
          split_ifs with hke
          · subst hke; exact n1 k hk
          · exact n1 k hk
        cases s with
        | false => exact n2
        | true =>
          simp only [if_true]
          split
          · exact n2
          · exact n2
          · exact n2
    | addBeamline l nm =>
      have : (h.addBeamline l nm).elem = h.elem ∧ (h.addBeamline l nm).nElem = h.nElem := by
        unfold Heap.addBeamline Heap.useLine
        cases dget (h.line l).lines nm <;> exact ⟨rfl, rfl⟩
      intro k hk
      simp only at hk ⊢
      rw [this.1]
      rw [this.2] at hk
      exact n k hk
    | editName l nm ps vs =>
      have f := editName_frame h l nm ps vs
      intro k hk
      simp only at hk ⊢
      rw [f.2.2.1] at hk
      exact ⟨editItems_norm _ _ _ k (n k hk).1, by rw [(f.2.2.2 k).2.2]; exact (n k hk).2⟩
    | editIndex l i ps vs =>
      have f := editIndex_frame h l i ps vs
      intro k hk
      simp only at hk ⊢
      rw [f.2.2.1] at hk
      refine ⟨?_, by rw [(f.2.2.2 k).2.2]; exact (n k hk).2⟩
      unfold Heap.editIndex
      split
      · exact (n k hk).1
      · split
        · exact (n k hk).1
        · exact editItem_norm _ _ _ k (n k hk).1
  · exact n

theorem run_normal (name : Option Str) (ops : List (Op R)) : (runOps name ops).Normal := by
  induction ops using List.reverseRecOn with
  | nil => intro e he; simp [runOps, Heap.init] at he
  | append_singleton ops op ih =>
    rw [run_snoc]
    exact normal_step (run_wf name ops) ih op

/-! ## Saving and loading a list of elements -/

/-- Keys that would collide in the dump or in the constructor. -/
def badKeys : List Str := ["name".toList, "type".toList, "self".toList, "element_name".toList, "element_type".toList]

theorem saveDict_eq (x : Elem R) (hn : Norm x.params) (hk : ∀ kv ∈ x.params, kv.1 ∉ badKeys) :
    saveDict x = ("name".toList, .str x.name) :: x.params ++ [("type".toList, .str x.type)] := by
  unfold saveDict
  have hk1 : ∀ kv ∈ x.params, kv.1 ≠ "name".toList := fun kv h e => hk kv h (by rw [e]; exact List.mem_cons_self)
  have hk2 : ∀ kv ∈ x.params, kv.1 ≠ "type".toList := fun kv h e =>
    hk kv h (by rw [e]; exact List.mem_cons_of_mem _ List.mem_cons_self)
  rw [foldl_dset_new _ _ hn.1, dset_new]
  · rfl
  · intro hm
    simp only [List.map_append, List.map_cons, List.map_nil, List.mem_append, List.mem_singleton] at hm
    rcases hm with hm | hm
    · exact absurd hm (by decide)
    · obtain ⟨kv, h1, h2⟩ := List.mem_map.mp hm
      exact hk2 kv h1 h2
  · intro k hkm
    simp only [List.map_cons, List.map_nil, List.mem_singleton]
    obtain ⟨kv, h1, h2⟩ := List.mem_map.mp hkm
    rw [← h2]
    exact hk1 kv h1

theorem loadDict_save (h : Heap R) (t : Nat) (x : Elem R) (hn : Norm x.params)
    (hk : ∀ kv ∈ x.params, kv.1 ∉ badKeys) :
    h.loadDict t (saveDict x) = h.addElement t x.name x.type x.params false := by
  have hk1 : ∀ kv ∈ x.params, kv.1 ≠ "name".toList := fun kv h e => hk kv h (by rw [e]; exact List.mem_cons_self)
  have hk2 : ∀ kv ∈ x.params, kv.1 ≠ "type".toList := fun kv h e =>
    hk kv h (by rw [e]; exact List.mem_cons_of_mem _ List.mem_cons_self)
  have e1 : dget (saveDict x) "name".toList = some (.str x.name) := by
    rw [saveDict_eq x hn hk, List.cons_append, dget_cons, if_pos rfl]
  have e2 : dget (saveDict x) "type".toList = some (.str x.type) := by
    rw [dget_some_iff]
    refine ⟨("name".toList, .str x.name) :: x.params, [], saveDict_eq x hn hk, ?_⟩
    intro p hp
    rcases List.mem_cons.mp hp with hp | hp
    · rw [hp]; show "name".toList ≠ "type".toList; decide
    · exact hk2 p hp
  have e3 : loadParams (saveDict x) = x.params := by
    unfold loadParams
    rw [saveDict_eq x hn hk, List.cons_append, List.filter_cons, List.filter_append]
    have hf : x.params.filter (fun kv => decide (kv.1 ≠ "type".toList ∧ kv.1 ≠ "name".toList)) = x.params := by
      rw [List.filter_eq_self]
      intro kv hkv
      simp only [decide_eq_true_eq]
      exact ⟨hk2 kv hkv, hk1 kv hkv⟩
    rw [hf]
    have a1 : decide ("name".toList ≠ "type".toList ∧ "name".toList ≠ "name".toList) = false := by decide
    have a2 : decide ("type".toList ≠ "type".toList ∧ "type".toList ≠ "name".toList) = false := by decide
    rw [List.filter_cons, List.filter_nil]
    simp only [a1, a2, Bool.false_eq_true, if_false, List.append_nil]
  unfold Heap.loadDict
  rw [e1, e2]
  simp only
  rw [e3]

/-- The calls that loading makes. -/
def loadOps (xs : List (Elem R)) : List (Op R) :=
  xs.map fun x => .addElement 0 x.name x.type x.params false

theorem addElement_ok (h : Heap R) (l : Nat) (name type : Str) (ps : List (Str × PVal R))
    (hp : ∀ kv ∈ ps, kv.1 ∉ reserved) : (h.addElement l name type ps false).2 = none := by
  have : ∃ r, h.useElement l name type ps = .ok r := by
    unfold Heap.useElement
    cases dget (h.line l).elements name with
    | some e => exact ⟨_, rfl⟩
    | none =>
      simp only [newElem]
      rw [if_neg]
      · exact ⟨_, rfl⟩
      · rw [List.any_eq_true]
        rintro ⟨kv, h1, h2⟩
        rw [List.contains_iff_mem] at h2
        exact hp kv h1 h2
  obtain ⟨r, hr⟩ := this
  rw [addElement_eq hr]

theorem loadTrees_elems (xs : List (Elem R)) (h : Heap R) (w : h.WF)
    (hx : ∀ x ∈ xs, Norm x.params ∧ ∀ kv ∈ x.params, kv.1 ∉ badKeys) :
    loadTrees 0 0 (xs.map fun x => Tree.elem (saveDict x)) h = ((loadOps xs).foldl Heap.step h, none) := by
  induction xs generalizing h with
  | nil => rfl
  | cons x xs ih =>
    obtain ⟨hn, hk⟩ := hx x (by simp)
    have h1 : loadTree 0 0 (Tree.elem (saveDict x)) h = h.addElement 0 x.name x.type x.params false := by
      rw [loadTree]
      exact loadDict_save h 0 x hn hk
    have h2 : (h.addElement 0 x.name x.type x.params false).2 = none :=
      addElement_ok h 0 _ _ _ fun kv hkv hr =>
        hk kv hkv (List.mem_cons_of_mem _ (List.mem_cons_of_mem _ hr))
    have h3 : h.step (.addElement 0 x.name x.type x.params false) =
        (h.addElement 0 x.name x.type x.params false).1 := by
      simp [Heap.step, Op.target, w.pos]
    rw [List.map_cons, loadTrees, h1]
    have h4 : h.addElement 0 x.name x.type x.params false =
        ((h.addElement 0 x.name x.type x.params false).1, none) := by
      rw [← h2]
    rw [h4]
    simp only
    rw [ih _ (w.addElement w.pos _ _ _ _) fun y hy => hx y (by simp [hy])]
    simp only [loadOps, List.map_cons, List.foldl_cons, h3]

theorem save_elems (h : Heap R) (fuel : Nat) (ids : List Nat) :
    (ids.map Item.elem).mapM (h.saveItem fuel) = some (ids.map fun e => Tree.elem (saveDict (h.elem e))) := by
  have : ∀ e, h.saveItem fuel (.elem e) = some (Tree.elem (saveDict (h.elem e))) := by
    intro e; cases fuel <;> rfl
  induction ids with
  | nil => rfl
  | cons e ids ih =>
    rw [List.map_cons, List.mapM_cons, this, ih]
    rfl

theorem loadOps_plain (xs : List (Elem R)) : ∀ op ∈ loadOps xs, op.plain := by
  intro op hop
  obtain ⟨x, _, rfl⟩ := List.mem_map.mp hop
  exact ⟨rfl, rfl⟩

/-- The user's view after loading elements that agree whenever their names agree. -/
theorem flat_load (xs : List (Elem R)) (f : Flat R)
    (hx : ∀ x ∈ xs, ∀ kv ∈ x.params, kv.1 ∉ reserved) :
    ((loadOps xs).foldl Flat.step f).names = f.names ++ xs.map Elem.name ∧
    ∀ n, ((loadOps xs).foldl Flat.step f).defs n =
      match f.defs n with
      | some d => some d
      | none => ((xs.find? fun x => x.name = n)).map fun x => ⟨strip (lower x.type), assigned x.params⟩ := by
  induction xs generalizing f with
  | nil => simp only [loadOps, List.map_nil, List.foldl_nil, List.append_nil, List.find?_nil, Option.map_none, true_and]
           intro n; cases f.defs n <;> rfl
  | cons x xs ih =>
    have hstep : f.step (.addElement 0 x.name x.type x.params false) = f.add x.name x.type x.params := by
      simp only [Flat.step]
      rw [if_neg]
      rintro ⟨_, h2⟩
      rw [List.any_eq_true] at h2
      obtain ⟨kv, h1, h2⟩ := h2
      rw [List.contains_iff_mem] at h2
      exact hx x (by simp) kv h1 h2
    have := ih (f.add x.name x.type x.params) fun y hy => hx y (by simp [hy])
    simp only [loadOps, List.map_cons, List.foldl_cons] at this ⊢
    rw [hstep]
    refine ⟨by rw [this.1]; simp [Flat.add], ?_⟩
    intro n
    rw [this.2 n]
    simp only [Flat.add]
    by_cases hn : n = x.name
    · subst hn
      simp only [if_true, List.find?_cons, decide_true]
      cases f.defs x.name <;> rfl
    · have hn' : ¬ x.name = n := fun h => hn h.symm
      simp only [if_neg hn, List.find?_cons, hn', decide_false]

end Verif.Lattice
