import Verif.Lattice.PropsNested

/-! # Parameter names that a beamline file cannot hold (C27) -/

namespace Verif.Lattice

variable {R : Type}

/-- No element has a parameter of one of these names. -/
def KeysFree (h : Heap R) : Prop := ∀ e, ∀ kv ∈ (h.elem e).params, kv.1 ∉ badKeys

theorem initParams_keys (ps : List (Str × PVal R)) : ∀ (d : Params R), ∀ k,
    k ∈ (ps.foldl (fun d kv => Params.setItem d kv.1 kv.2) d).map Prod.fst ↔
      k ∈ d.map Prod.fst ∨ ∃ kv ∈ ps, k = lower kv.1 := by
  induction ps with
  | nil => intro d k; simp
  | cons p ps ih =>
    intro d k
    rw [List.foldl_cons, ih]
    have : k ∈ (Params.setItem d p.1 p.2).map Prod.fst ↔ k = lower p.1 ∨ k ∈ d.map Prod.fst :=
      keys_dset d (lower p.1) p.2 k
    rw [this]
    simp only [List.mem_cons, exists_eq_or_imp]
    tauto

theorem loadDict_free (h : Heap R) (target : Nat) (d : Dict Str (PVal R)) (hd : ∀ kv ∈ d, lower kv.1 = kv.1)
    (hf : KeysFree h) : KeysFree (h.loadDict target d).1 := by
  unfold Heap.loadDict
  split
  · rename_i n t _ _
    unfold Heap.addElement
    cases hu : h.useElement target n t (loadParams d) with
    | error err => simpa using hf
    | ok r =>
      obtain ⟨h1, e⟩ := r
      have h1f : KeysFree h1 := by
        unfold Heap.useElement at hu
        cases hg : dget (h.line target).elements n with
        | some e' =>
          rw [hg] at hu
          simp only [Except.ok.injEq, Prod.mk.injEq] at hu
          rw [← hu.1]
          exact hf
        | none =>
          rw [hg] at hu
          simp only [newElem] at hu
          by_cases hr : (loadParams d).any (fun kv => reserved.contains kv.1) = true
          · rw [if_pos hr] at hu
            cases hu
          · rw [if_neg hr] at hu
            simp only [bind, Except.bind, Except.ok.injEq, Prod.mk.injEq] at hu
            rw [← hu.1]
            intro k kv hkv
            simp only [Heap.setLine, Heap.setElem] at hkv
            by_cases hk : k = h.nElem
            · rw [if_pos hk] at hkv
              have hm : kv.1 ∈ (initParams (loadParams d)).map Prod.fst := List.mem_map.mpr ⟨kv, hkv, rfl⟩
              unfold initParams at hm
              rw [initParams_keys] at hm
              simp only [List.map_nil, List.not_mem_nil, false_or] at hm
              obtain ⟨kw, hkw, he⟩ := hm
              have hl := List.mem_filter.mp hkw
              rw [hd kw hl.1] at he
              have h2 := hl.2
              simp only [decide_eq_true_eq] at h2
              intro hb
              rw [he] at hb
              unfold badKeys at hb
              rcases List.mem_cons.mp hb with hb | hb
              · exact h2.2 hb
              · rcases List.mem_cons.mp hb with hb | hb
                · exact h2.1 hb
                · apply hr
                  rw [List.any_eq_true]
                  exact ⟨kw, hkw, by simpa [reserved] using hb⟩
            · rw [if_neg hk] at hkv
              exact hf k kv hkv
      have h2f : KeysFree ((h1.setElem e { h1.elem e with top := (h1.line target).top }).append target (.elem e)) := by
        intro k kv hkv
        simp only [Heap.append, Heap.setLine, Heap.setElem] at hkv
        by_cases hk : k = e
        · rw [if_pos hk] at hkv
          exact h1f e kv hkv
        · rw [if_neg hk] at hkv
          exact h1f k kv hkv
      simpa using h2f
  · exact hf
  · exact hf
  · exact hf

theorem addBeamline_elem (h : Heap R) (l : Nat) (name : Option Str) : (h.addBeamline l name).elem = h.elem := by
  unfold Heap.addBeamline Heap.useLine
  cases dget (h.line l).lines name <;> rfl

mutual

theorem loadTrees_free (self target : Nat) : ∀ (ts : List (Tree R)) (h : Heap R),
    (∀ d ∈ Tree.leavesL ts, ∀ kv ∈ d, lower kv.1 = kv.1) → KeysFree h → KeysFree (loadTrees self target ts h).1
  | [], h, _, hf => by simpa [loadTrees] using hf
  | t :: ts, h, hd, hf => by
    have h1 := loadTree_free self target t h
      (fun d hm => hd d (by rw [Tree.leavesL]; exact List.mem_append_left _ hm)) hf
    unfold loadTrees
    rcases hr : loadTree self target t h with ⟨h', err⟩
    rw [hr] at h1
    cases err with
    | none =>
      exact loadTrees_free self target ts h'
        (fun d hm => hd d (by rw [Tree.leavesL]; exact List.mem_append_right _ hm)) h1
    | some err => exact h1

theorem loadTree_free (self target : Nat) : ∀ (t : Tree R) (h : Heap R),
    (∀ d ∈ t.leaves, ∀ kv ∈ d, lower kv.1 = kv.1) → KeysFree h → KeysFree (loadTree self target t h).1
  | .elem d, h, hd, hf => by
    rw [loadTree]
    exact loadDict_free h target d (hd d (by simp [Tree.leaves])) hf
  | .line xs, h, hd, hf => by
    rw [loadTree]
    have : KeysFree (h.addBeamline self none) := by
      intro e
      rw [addBeamline_elem]
      exact hf e
    exact loadTrees_free self _ xs _ (fun d hm => hd d (by rw [Tree.leaves]; exact hm)) this

end

theorem saveDict_lower (x : Elem R) (hn : Norm x.params) : ∀ kv ∈ saveDict x, lower kv.1 = kv.1 := by
  intro kv hkv
  have hm : kv.1 ∈ (saveDict x).map Prod.fst := List.mem_map.mpr ⟨kv, hkv, rfl⟩
  unfold saveDict at hm
  rw [keys_dset] at hm
  have key : ∀ (ps : List (Str × PVal R)) (d : Dict Str (PVal R)) (k : Str),
      k ∈ (ps.foldl (fun d kv => dset d kv.1 kv.2) d).map Prod.fst → k ∈ d.map Prod.fst ∨ k ∈ ps.map Prod.fst := by
    intro ps
    induction ps with
    | nil => intro d k h; exact .inl h
    | cons p ps ih =>
      intro d k h
      rw [List.foldl_cons] at h
      rcases ih _ k h with h | h
      · rw [keys_dset] at h
        rcases h with h | h
        · exact .inr (by rw [h]; simp)
        · exact .inl h
      · exact .inr (List.mem_cons_of_mem _ h)
  rcases hm with hm | hm
  · rw [hm]; decide +kernel
  · rcases key _ _ _ hm with hm | hm
    · simp only [List.map_cons, List.map_nil, List.mem_singleton] at hm
      rw [hm]; decide +kernel
    · obtain ⟨kw, h1, h2⟩ := List.mem_map.mp hm
      rw [← h2]
      exact hn.2 kw h1

/-- A beamline (after any history of calls, any nesting) with an element that has a parameter called `name`, `type`,
`self`, `element_name` or `element_type` does not come back from its file: loading raises, or what is loaded does
not consist of the same elements. -/
theorem yaml_keys_fails (name name' : Option Str) (ops : List (Op R)) (fuel fuel' : Nat) (es : List Nat)
    (he : (runOps name ops).elementsOf fuel 0 = some es) (e : Nat) (hm : e ∈ es)
    (kv : Str × PVal R) (hkv : kv ∈ ((runOps name ops).elem e).params) (hk : kv.1 ∈ badKeys) :
    ∃ ts, (runOps name ops).save fuel 0 = some ts ∧ ∀ h' ids,
      (Heap.init name' : Heap R).load 0 ts = (h', none) → h'.elementsOf fuel' 0 = some ids →
      ¬ List.Forall₂ (fun e e' => SameElem ((runOps name ops).elem e) (h'.elem e')) es ids := by
  obtain ⟨ts, sub, h1, h2, -⟩ := save_tree (runOps name ops) fuel ((runOps name ops).line 0).seq es he
  refine ⟨ts, h1, ?_⟩
  have hall := (run_wf name ops).line_unfolds_lt (run_wf name ops).pos (flatSeq_sound _ _ _ _ he)
  have hb := hall e hm
  intro h' ids hl hids hfa
  have hnorm := run_normal name ops
  have hd : ∀ d ∈ Tree.leavesL ts, ∀ kv ∈ d, lower kv.1 = kv.1 := by
    intro d hdm
    rw [h2] at hdm
    obtain ⟨e', h3, h4⟩ := List.mem_map.mp hdm
    rw [← h4]
    exact saveDict_lower _ (hnorm e' (hall e' h3)).1
  have hinit : KeysFree (Heap.init name' : Heap R) := by
    intro k kv hkv
    simp [Heap.init, noElem] at hkv
  have hfree : KeysFree h' := by
    have := loadTrees_free 0 0 ts (Heap.init name' : Heap R) hd hinit
    unfold Heap.load at hl
    by_cases hs : ((Heap.init name' : Heap R).line 0).seq ≠ []
    · rw [if_pos hs] at hl
      have := (Prod.mk.inj hl).1
      rw [← this]; exact hinit
    · rw [if_neg hs] at hl
      rw [hl] at this
      exact this
  obtain ⟨e', hs⟩ : ∃ e', SameElem ((runOps name ops).elem e) (h'.elem e') := by
    clear he hall h2 hids
    induction hfa with
    | nil => cases hm
    | cons hx _ ih =>
      rcases List.mem_cons.mp hm with hm | hm
      · rw [hm]; exact ⟨_, hx⟩
      · exact ih hm
  have hg := hs.2.2 kv.1
  have hkeyl := (hnorm e hb).1.2 kv hkv
  unfold Params.getItem at hg
  rw [hkeyl] at hg
  have hne : dget (h'.elem e').params kv.1 = none := by
    rw [dget_none_iff]
    intro kw h5 h6
    exact hfree e' kw h5 (h6 ▸ hk)
  rw [hne, dget_none_iff] at hg
  exact hg kv hkv rfl

/-- A quadrupole with a parameter called `type` behind a drift. -/
def exKeys : List (Op Int) :=
  [.addElement 0 "d".toList "drift".toList [] false,
   .addElement 0 "q".toList "quad".toList [("TYPE".toList, .num 3)] false]

example : (runOps none exKeys).elementsOf 1 0 = some [0, 1] ∧
    (("type".toList, .num 3) : Str × PVal Int) ∈ ((runOps none exKeys).elem 1).params ∧ "type".toList ∈ badKeys := by
  refine ⟨rfl, ?_, ?_⟩ <;> decide +kernel

example : ∃ ts, (runOps none exKeys).save 1 0 = some ts ∧ ∀ h' ids,
    (Heap.init none : Heap Int).load 0 ts = (h', none) → h'.elementsOf 1 0 = some ids →
    ¬ List.Forall₂ (fun e e' => SameElem ((runOps none exKeys).elem e) (h'.elem e')) [0, 1] ids :=
  yaml_keys_fails none none exKeys 1 1 [0, 1] rfl 1 (by simp) ("type".toList, .num 3) (by decide +kernel)
    (by decide +kernel)

end Verif.Lattice
