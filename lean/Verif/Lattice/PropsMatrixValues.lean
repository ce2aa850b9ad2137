import Verif.Lattice.PropsMatrix

/-!
# Property C28 for parameters under the names of the symbols

`parameters` is a dictionary that makes names lower case when items are set one by one, so the symbols `K1` and `L` of the matrices are never
found. `parameters.update(...)` of the base class `dict` does not do so. Here: what `generate_matrix` gives for names as they are.
-/

namespace Verif.Lattice

open Matrix

/-- The symbol values after one replacement. -/
noncomputable def assign (ρ : Str → ℂ) (key : Str) (x : ℂ) : Str → ℂ := fun s => if s = key then x else ρ s

/-- The value of a parameter for given values of the symbols. -/
def PVal.value (ρ : Str → ℂ) : PVal ℝ → ℂ
  | .num x => x
  | .str s => ρ s

/-- Replacing a symbol by an expression gives the value for the changed symbol value. -/
theorem subs_eval (ρ : Str → ℂ) (key : Str) (new : Ex ℝ) (a : Ex ℝ) :
    (a.subs key new).eval (fun x : ℝ => (x : ℂ)) ρ = a.eval (fun x : ℝ => (x : ℂ)) (assign ρ key (new.eval (fun x : ℝ => (x : ℂ)) ρ)) := by
  induction a with
  | sym s =>
    simp only [Ex.subs, Ex.eval, assign]
    by_cases h : s = key
    · rw [if_pos h, if_pos h]
    · rw [if_neg h, if_neg h, Ex.eval]
  | val => simp only [Ex.subs, Ex.eval]
  | zero => simp only [Ex.subs, Ex.eval]
  | one => simp only [Ex.subs, Ex.eval]
  | neg a ih => simp only [Ex.subs, Ex.eval, ih]
  | add a b iha ihb => simp only [Ex.subs, Ex.eval, iha, ihb]
  | mul a b iha ihb => simp only [Ex.subs, Ex.eval, iha, ihb]
  | div a b iha ihb => simp only [Ex.subs, Ex.eval, iha, ihb]
  | sqrt a ih => simp only [Ex.subs, Ex.eval, ih]
  | cosh a ih => simp only [Ex.subs, Ex.eval, ih]
  | sinh a ih => simp only [Ex.subs, Ex.eval, ih]

theorem toEx_eval (ρ : Str → ℂ) (v : PVal ℝ) : v.toEx.eval (fun x : ℝ => (x : ℂ)) ρ = v.value ρ := by
  cases v with
  | num x => rw [PVal.toEx, Ex.eval, PVal.value]
  | str s => rw [PVal.toEx, Ex.eval, PVal.value]

/-- The symbol values that the parameters stand for. -/
noncomputable def assignAll (ρ : Str → ℂ) (ps : Params ℝ) : Str → ℂ :=
  ps.foldr (fun kv ρ => assign ρ kv.1 (kv.2.value ρ)) ρ

theorem insertParams_eval (ρ : Str → ℂ) (ps : Params ℝ) (m : ExM ℝ) : evalM ρ (insertParams m ps) = evalM (assignAll ρ ps) m := by
  unfold insertParams assignAll
  induction ps generalizing m with
  | nil => rfl
  | cons kv ps ih =>
    rw [List.foldl_cons, ih, List.foldr_cons]
    ext i j
    unfold evalM subsM
    rw [subs_eval, toEx_eval]

theorem assignAll_other (ρ : Str → ℂ) (ps : Params ℝ) (s : Str) (hs : ∀ p ∈ ps, p.1 ≠ s) : assignAll ρ ps s = ρ s := by
  induction ps with
  | nil => rfl
  | cons p ps ih =>
    have : assignAll ρ (p :: ps) = assign (assignAll ρ ps) p.1 (p.2.value (assignAll ρ ps)) := rfl
    rw [this, assign, if_neg fun h => hs p (by simp) h.symm]
    exact ih fun q hq => hs q (List.mem_cons_of_mem _ hq)

/-- No text value of a parameter is the name of a parameter. -/
def Separate (ps : Params ℝ) : Prop := ∀ p ∈ ps, ∀ s, p.2 = .str s → ∀ q ∈ ps, q.1 ≠ s

theorem assignAll_key (ρ : Str → ℂ) (ps : Params ℝ) (hn : (ps.map Prod.fst).Nodup) (hs : Separate ps) {key : Str} {v : PVal ℝ} (hp : (key, v) ∈ ps) :
    assignAll ρ ps key = v.value ρ := by
  induction ps with
  | nil => exact absurd hp (by simp)
  | cons p ps ih =>
    have e : assignAll ρ (p :: ps) = assign (assignAll ρ ps) p.1 (p.2.value (assignAll ρ ps)) := rfl
    rw [List.map_cons, List.nodup_cons] at hn
    rw [e, assign]
    rcases List.mem_cons.1 hp with h | h
    · subst h
      rw [if_pos rfl]
      cases v with
      | num x => rfl
      | str s => exact assignAll_other ρ ps s fun q hq => hs (key, .str s) (by simp) s rfl q (List.mem_cons_of_mem _ hq)
    · rw [if_neg ?_]
      · exact ih hn.2 (fun p hp s h q hq => hs p (List.mem_cons_of_mem _ hp) s h q (List.mem_cons_of_mem _ hq)) h
      · rintro rfl
        exact hn.1 (List.mem_map.2 ⟨_, h, rfl⟩)

/-- The element has the strength `k` (if it is a quadrupole) and the length `L` under the names of the symbols; a text stands for the value of the symbol of that name. -/
structure HasValues (ρ : Str → ℂ) (x : Elem ℝ) (k L : ℝ) : Prop where
  distinct : (x.params.map Prod.fst).Nodup
  separate : Separate x.params
  length : ∃ v, ("L".toList, v) ∈ x.params ∧ v.value ρ = L
  strength : x.type = "quadrupole".toList → k ≠ 0 ∧ ∃ v, ("K1".toList, v) ∈ x.params ∧ v.value ρ = k

theorem item_values (ρ : Str → ℂ) {x : Elem ℝ} {k L : ℝ} (hx : HasValues ρ x k L) {m : ExM ℝ} (ht : typeMatrix x.type = some m) :
    evalM ρ (insertParams m x.params) = (transfer x.type k L).map fun y : ℝ => (y : ℂ) := by
  obtain ⟨v, hv, hL⟩ := hx.length
  rw [insertParams_eval]
  have hl : assignAll ρ x.params "L".toList = L := by rw [assignAll_key ρ _ hx.distinct hx.separate hv, hL]
  by_cases hq : x.type = "quadrupole".toList
  · obtain ⟨h0, w, hw, hk⟩ := hx.strength hq
    exact typeMatrix_eval ht _ k L (by rw [assignAll_key ρ _ hx.distinct hx.separate hw, hk]) hl fun _ => h0
  · unfold typeMatrix at ht
    unfold transfer
    rw [if_neg hq] at ht ⊢
    by_cases hd : x.type = "drift".toList
    · rw [if_pos hd] at ht
      injection ht with ht
      rw [← ht, evalM_drift, hl]
      ext i j
      fin_cases i <;> fin_cases j <;> simp [driftC, driftSpec]
    · rw [if_neg hd] at ht
      exact absurd ht (by simp)

/-- **C28, what is true of it.** If the parameters carry the names of the symbols, then the matrix is the product in beam order of the matrices of the
elements with their own values. Missing: parameters set in the usual way, whose names are lower case, see `matrix_values_fails`. -/
theorem matrix_own_partial (h : Heap ℝ) (l : Nat) (es : List Nat) (hs : (h.line l).seq = es.map Item.elem) (m : ExM ℝ) (vs : List Str)
    (hm : h.generateMatrix l = .ok (m, vs)) (ρ : Str → ℂ) (k L : Nat → ℝ) (hv : ∀ e ∈ es, HasValues ρ (h.elem e) (k e) (L e)) :
    evalM ρ m = inOrder (es.map fun e => (transfer (h.elem e).type (k e) (L e)).map fun x : ℝ => (x : ℂ)) := by
  unfold Heap.generateMatrix at hm
  rw [hs] at hm
  cases hms : (es.map Item.elem).mapM (itemMatrix h) with
  | error e => rw [hms] at hm; cases hm
  | ok ms =>
    rw [hms] at hm
    change (concatM ms >>= fun m => Except.ok (m, variablesOf h (es.map Item.elem))) = _ at hm
    cases hc : concatM ms with
    | error e => rw [hc] at hm; cases hm
    | ok m' =>
      rw [hc] at hm
      cases hm
      rw [concatM_eval ρ ms m hc]
      congr 1
      have hf := (mapM_ok _ _ _).mp hms
      clear hms hc hs
      induction es generalizing ms with
      | nil =>
        cases hf
        rfl
      | cons e es ih =>
        cases hf with
        | cons h1 h2 =>
          rename_i m1 ms'
          rw [List.map_cons, List.map_cons, ih (fun e he => hv e (List.mem_cons_of_mem _ he)) _ h2]
          congr 1
          unfold itemMatrix at h1
          simp only at h1
          cases ht : typeMatrix (h.elem e).type with
          | none => rw [ht] at h1; cases h1
          | some mt =>
            rw [ht] at h1
            injection h1 with h1
            rw [← h1]
            exact item_values ρ (hv e (by simp)) ht

theorem nodup_eraseDups {α : Type} [BEq α] [LawfulBEq α] (l : List α) : l.eraseDups.Nodup := by
  generalize hn : l.length = n
  induction n using Nat.strongRecOn generalizing l with
  | _ n ih =>
    cases l with
    | nil => simp
    | cons a l =>
      rw [List.eraseDups_cons, List.nodup_cons]
      refine ⟨?_, ih _ ?_ _ rfl⟩
      · rw [List.mem_eraseDups]
        simp
      · rw [← hn, List.length_cons]
        exact Nat.lt_succ_of_le (List.length_filter_le _ _)

/-- **C28, the arguments.** The function that is returned has each text value of a parameter as an argument, once. -/
theorem matrix_arguments (h : Heap ℝ) (l : Nat) (m : ExM ℝ) (vs : List Str) (hm : h.generateMatrix l = .ok (m, vs)) :
    vs.Nodup ∧ ∀ v, v ∈ vs ↔ ∃ e key, Item.elem e ∈ (h.line l).seq ∧ (key, PVal.str v) ∈ (h.elem e).params := by
  have hvs : vs = variablesOf h (h.line l).seq := by
    unfold Heap.generateMatrix at hm
    cases hms : (h.line l).seq.mapM (itemMatrix h) with
    | error e => rw [hms] at hm; cases hm
    | ok ms =>
      rw [hms] at hm
      change (concatM ms >>= fun m => Except.ok (m, variablesOf h (h.line l).seq)) = _ at hm
      cases hc : concatM ms with
      | error e => rw [hc] at hm; cases hm
      | ok m' => rw [hc] at hm; cases hm; rfl
  rw [hvs]
  refine ⟨nodup_eraseDups _, ?_⟩
  intro v
  unfold variablesOf
  rw [List.mem_eraseDups, List.mem_flatMap]
  constructor
  · rintro ⟨i, hi, hv⟩
    cases i with
    | line k => exact absurd hv (by simp)
    | elem e =>
      simp only [List.mem_filterMap] at hv
      obtain ⟨kv, hkv, he⟩ := hv
      refine ⟨e, kv.1, hi, ?_⟩
      cases hk : kv.2 with
      | num x => rw [hk] at he; cases he
      | str s =>
        rw [hk] at he
        injection he with he
        rw [← he, ← hk]
        exact hkv
  · rintro ⟨e, key, he, hk⟩
    refine ⟨.elem e, he, ?_⟩
    simp only [List.mem_filterMap]
    exact ⟨(key, .str v), hk, rfl⟩

/-! ## Examples -/

/-- A drift of length 1 and a quadrupole of length 2 and strength `k`, with parameters put in by `update`. -/
def exUpper : Heap ℝ :=
  ((runOps none [.addElement 0 "a".toList "drift".toList [] false, .addElement 0 "q".toList "quadrupole".toList [] false] : Heap ℝ).setElem 0
    ⟨"a".toList, "drift".toList, [("L".toList, .num 1)], 0⟩).setElem 1
    ⟨"q".toList, "quadrupole".toList, [("L".toList, .num 2), ("K1".toList, .str "k".toList), ("tilt".toList, .str "k".toList)], 0⟩

example : (exUpper.line 0).seq = [0, 1].map Item.elem := rfl

example (ρ : Str → ℂ) (hρ : ρ "k".toList = (3 : ℝ)) : HasValues ρ (exUpper.elem 0) 0 1 ∧ HasValues ρ (exUpper.elem 1) 3 2 := by
  constructor
  · refine ⟨show ["L".toList].Nodup by decide, ?_, ⟨.num 1, List.mem_cons_self .., rfl⟩, fun h => absurd h (show ¬ "drift".toList = "quadrupole".toList by decide)⟩
    intro p hp s h
    rcases List.mem_cons.1 hp with rfl | hp
    · cases h
    · cases hp
  · refine ⟨show ["L".toList, "K1".toList, "tilt".toList].Nodup by decide, ?_, ⟨.num 2, List.mem_cons_self .., rfl⟩,
      fun _ => ⟨by norm_num, .str "k".toList, List.mem_cons_of_mem _ (List.mem_cons_self ..), hρ⟩⟩
    have key : ∀ q ∈ (exUpper.elem 1).params, q.1 ≠ "k".toList := by
      intro q hq
      have : q.1 ∈ ["L".toList, "K1".toList, "tilt".toList] := List.mem_map_of_mem (f := Prod.fst) hq
      revert this
      generalize q.1 = x
      revert x
      decide
    intro p hp s h
    rcases List.mem_cons.1 hp with rfl | hp
    · cases h
    · rcases List.mem_cons.1 hp with rfl | hp
      · injection h with h; rw [← h]; exact key
      · rcases List.mem_cons.1 hp with rfl | hp
        · injection h with h; rw [← h]; exact key
        · cases hp

/-- The matrix exists, and the function returned has one argument. -/
example : ∃ m, exUpper.generateMatrix 0 = .ok (m, ["k".toList]) := ⟨_, rfl⟩

end Verif.Lattice
