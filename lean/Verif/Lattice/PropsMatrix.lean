import Mathlib.Analysis.SpecialFunctions.Trigonometric.Deriv
import Mathlib.Analysis.SpecialFunctions.Trigonometric.DerivHyp
import Mathlib.Analysis.Calculus.Deriv.Mul
import Mathlib.Tactic.LinearCombination
import Mathlib.Tactic.FinCases
import Verif.Lattice.LemmasYaml
import Verif.Lattice.Matrix

/-! # Transfer matrices (C28, C67) -/

namespace Verif.Lattice

open Matrix

/-! ## Specification -/

/-- Motion along a drift, in both planes. -/
def driftSpec (L : ℝ) : Matrix (Fin 4) (Fin 4) ℝ :=
  !![1, L, 0, 0;
     0, 1, 0, 0;
     0, 0, 1, L;
     0, 0, 0, 1]

/-- A quadrupole of strength `k > 0`: focusing (`x'' = - k x`) in the first plane and
defocusing (`y'' = k y`) in the second. -/
noncomputable def focusSpec (k L : ℝ) : Matrix (Fin 4) (Fin 4) ℝ :=
  !![Real.cos (√k * L), Real.sin (√k * L) / √k, 0, 0;
     -√k * Real.sin (√k * L), Real.cos (√k * L), 0, 0;
     0, 0, Real.cosh (√k * L), Real.sinh (√k * L) / √k;
     0, 0, √k * Real.sinh (√k * L), Real.cosh (√k * L)]

/-- The same with the two planes exchanged: defocusing in the first plane. -/
noncomputable def defocusSpec (k L : ℝ) : Matrix (Fin 4) (Fin 4) ℝ :=
  !![Real.cosh (√k * L), Real.sinh (√k * L) / √k, 0, 0;
     √k * Real.sinh (√k * L), Real.cosh (√k * L), 0, 0;
     0, 0, Real.cos (√k * L), Real.sin (√k * L) / √k;
     0, 0, -√k * Real.sin (√k * L), Real.cos (√k * L)]

/-- Transfer matrix of an element type for given strength and length. -/
noncomputable def transfer (type : Str) (k L : ℝ) : Matrix (Fin 4) (Fin 4) ℝ :=
  if type = "quadrupole".toList then
    if 0 < k then focusSpec k L else if k < 0 then defocusSpec (-k) L else driftSpec L
  else driftSpec L

/-- The matrix of a sequence of elements in beam order: the first one acts first. -/
def inOrder {K : Type} [CommRing K] : List (Matrix (Fin 4) (Fin 4) K) → Matrix (Fin 4) (Fin 4) K
  | [] => 1
  | m :: ms => inOrder ms * m

/-- Values of all entries. -/
noncomputable def evalM (ρ : Str → ℂ) (m : ExM ℝ) : Matrix (Fin 4) (Fin 4) ℂ :=
  fun i j => (m i j).eval (fun x : ℝ => (x : ℂ)) ρ

/-! ## Lemmas -/

theorem evalM_mul (ρ : Str → ℂ) (a b : ExM ℝ) : evalM ρ (mulM a b) = evalM ρ a * evalM ρ b := by
  ext i j
  rw [Matrix.mul_apply, Fin.sum_univ_four]
  rfl

theorem foldl_mulM (ρ : Str → ℂ) (rest : List (ExM ℝ)) (m : ExM ℝ) :
    evalM ρ (rest.foldl mulM m) = evalM ρ m * inOrder ((rest.map (evalM ρ)).reverse) := by
  induction rest generalizing m with
  | nil => simp [inOrder]
  | cons x rest ih =>
    rw [List.foldl_cons, ih, evalM_mul, Matrix.mul_assoc]
    congr 1
    rw [List.map_cons, List.reverse_cons]
    generalize (rest.map (evalM ρ)).reverse = ys
    induction ys with
    | nil => simp [inOrder]
    | cons y ys ih => rw [List.cons_append, inOrder, inOrder, ← ih, Matrix.mul_assoc]

theorem inOrder_snoc {K : Type} [CommRing K] (ms : List (Matrix (Fin 4) (Fin 4) K)) (m : Matrix (Fin 4) (Fin 4) K) :
    inOrder (ms ++ [m]) = m * inOrder ms := by
  induction ms with
  | nil => simp [inOrder]
  | cons y ys ih => rw [List.cons_append, inOrder, inOrder, ih, Matrix.mul_assoc]

theorem concatM_eval (ρ : Str → ℂ) (ms : List (ExM ℝ)) (m : ExM ℝ) (h : concatM ms = .ok m) :
    evalM ρ m = inOrder (ms.map (evalM ρ)) := by
  unfold concatM at h
  cases hr : ms.reverse with
  | nil => rw [hr] at h; simp at h
  | cons x rest =>
    rw [hr] at h
    simp only [Except.ok.injEq] at h
    have : ms = rest.reverse ++ [x] := by rw [← List.reverse_reverse ms, hr, List.reverse_cons]
    rw [← h, foldl_mulM, this, List.map_append, List.map_cons, List.map_nil, inOrder_snoc, List.map_reverse]

/-- The expression has no symbols but `K1` and `L`. -/
def Ex.only {R : Type} : Ex R → Prop
  | .sym s => s = "K1".toList ∨ s = "L".toList
  | .val _ => True
  | .zero => True
  | .one => True
  | .neg a => a.only
  | .add a b => a.only ∧ b.only
  | .mul a b => a.only ∧ b.only
  | .div a b => a.only ∧ b.only
  | .sqrt a => a.only
  | .cosh a => a.only
  | .sinh a => a.only

theorem subs_only {R : Type} {key : Str} (hk : key ≠ "K1".toList ∧ key ≠ "L".toList) (new : Ex R) (a : Ex R)
    (ha : a.only) : a.subs key new = a := by
  induction a with
  | sym s =>
    have : s ≠ key := by
      rcases ha with h | h
      · rw [h]; exact fun hh => hk.1 hh.symm
      · rw [h]; exact fun hh => hk.2 hh.symm
    simp only [Ex.subs, if_neg this]
  | val => rfl
  | zero => rfl
  | one => rfl
  | neg a ih => simp only [Ex.subs, ih ha]
  | add a b iha ihb => simp only [Ex.subs, iha ha.1, ihb ha.2]
  | mul a b iha ihb => simp only [Ex.subs, iha ha.1, ihb ha.2]
  | div a b iha ihb => simp only [Ex.subs, iha ha.1, ihb ha.2]
  | sqrt a ih => simp only [Ex.subs, ih ha]
  | cosh a ih => simp only [Ex.subs, ih ha]
  | sinh a ih => simp only [Ex.subs, ih ha]

theorem quad_only {R : Type} : ∀ i j, (quadMatrix i j : Ex R).only := by
  intro i j
  fin_cases i <;> fin_cases j <;> simp [quadMatrix, Ex.only, symK1, symL]

theorem drift_only {R : Type} : ∀ i j, (driftMatrix i j : Ex R).only := by
  intro i j
  fin_cases i <;> fin_cases j <;> simp [driftMatrix, Ex.only, symL]

theorem insertParams_only {R : Type} (ps : Params R)
    (hk : ∀ kv ∈ ps, kv.1 ≠ "K1".toList ∧ kv.1 ≠ "L".toList) (m : ExM R)
    (hm : ∀ i j, (m i j).only) : insertParams m ps = m := by
  unfold insertParams
  induction ps with
  | nil => rfl
  | cons kv ps ih =>
    rw [List.foldl_cons]
    have : subsM m kv.1 kv.2.toEx = m := by
      funext i j
      exact subs_only (hk kv (by simp)) _ _ (hm i j)
    rw [this]
    exact ih fun x hx => hk x (by simp [hx])

/-- Lower case text is not `K1` or `L`. -/
theorem lower_ne (k : Str) (hk : lower k = k) : k ≠ "K1".toList ∧ k ≠ "L".toList := by
  constructor
  · rintro rfl; exact absurd hk (by decide)
  · rintro rfl; exact absurd hk (by decide)

theorem mapM_ok {α β : Type} (f : α → Except PyErr β) :
    ∀ (s : List α) (r : List β), s.mapM f = .ok r ↔ List.Forall₂ (fun a b => f a = .ok b) s r := by
  intro s
  induction s with
  | nil =>
    intro r
    rw [List.mapM_nil]
    constructor
    · intro h
      cases h
      exact .nil
    · intro h
      cases h
      rfl
  | cons a s ih =>
    intro r
    rw [List.mapM_cons]
    constructor
    · intro h
      cases ha : f a with
      | error e => rw [ha] at h; cases h
      | ok b =>
        rw [ha] at h
        cases hs : s.mapM f with
        | error e => rw [hs] at h; cases h
        | ok bs =>
          rw [hs] at h
          cases h
          exact .cons ha ((ih bs).mp hs)
    · intro h
      cases h with
      | cons h1 h2 =>
        rw [h1, (ih _).mpr h2]
        rfl

/-! ## C28 -/

/-- The numerical form of the quadrupole matrix, with the two roots `p`, `q`. -/
noncomputable def quadC (p q L : ℂ) : Matrix (Fin 4) (Fin 4) ℂ :=
  !![Complex.cosh (p * L), Complex.sinh (p * L) / p, 0, 0;
     p * Complex.sinh (p * L), Complex.cosh (p * L), 0, 0;
     0, 0, Complex.cosh (q * L), Complex.sinh (q * L) / q;
     0, 0, q * Complex.sinh (q * L), Complex.cosh (q * L)]

/-- The numerical form of the drift matrix. -/
def driftC (L : ℂ) : Matrix (Fin 4) (Fin 4) ℂ :=
  !![1, L, 0, 0;
     0, 1, 0, 0;
     0, 0, 1, L;
     0, 0, 0, 1]

theorem eval_symK1 (f : ℝ → ℂ) (ρ : Str → ℂ) : (symK1 : Ex ℝ).eval f ρ = ρ "K1".toList := by
  rw [symK1, Ex.eval]
theorem eval_symL (f : ℝ → ℂ) (ρ : Str → ℂ) : (symL : Ex ℝ).eval f ρ = ρ "L".toList := by
  rw [symL, Ex.eval]

theorem evalM_quad (ρ : Str → ℂ) : evalM ρ quadMatrix =
    quadC ((-ρ "K1".toList) ^ (2⁻¹ : ℂ)) (ρ "K1".toList ^ (2⁻¹ : ℂ)) (ρ "L".toList) := by
  rw [← eval_symK1 (fun x : ℝ => (x : ℂ)) ρ, ← eval_symL (fun x : ℝ => (x : ℂ)) ρ]
  ext i j
  fin_cases i <;> fin_cases j <;> simp [evalM, quadMatrix, quadC, Ex.eval]

theorem evalM_drift (ρ : Str → ℂ) : evalM ρ driftMatrix = driftC (ρ "L".toList) := by
  rw [← eval_symL (fun x : ℝ => (x : ℂ)) ρ]
  ext i j
  fin_cases i <;> fin_cases j <;> simp [evalM, driftMatrix, driftC, Ex.eval]

theorem root_pos (q : ℝ) (hq : 0 < q) : (q : ℂ) ^ (2⁻¹ : ℂ) = ((√q : ℝ) : ℂ) := by
  have h := Complex.pow_cpow_ofNat_inv (x := ((√q : ℝ) : ℂ)) (n := 2)
    (by rw [Complex.arg_ofReal_of_nonneg (Real.sqrt_nonneg q)]; simp [Real.pi_pos])
    (by rw [Complex.arg_ofReal_of_nonneg (Real.sqrt_nonneg q)]; positivity)
  have h2 : ((√q : ℝ) : ℂ) ^ 2 = q := by
    rw [← Complex.ofReal_pow, Real.sq_sqrt hq.le]
  rw [h2] at h
  exact h

theorem root_neg (q : ℝ) (hq : 0 < q) : (-(q : ℂ)) ^ (2⁻¹ : ℂ) = ((√q : ℝ) : ℂ) * Complex.I := by
  have ha : (((√q : ℝ) : ℂ) * Complex.I).arg = Real.pi / 2 := by
    rw [Complex.arg_real_mul _ (Real.sqrt_pos.mpr hq), Complex.arg_I]
  have h := Complex.pow_cpow_ofNat_inv (x := ((√q : ℝ) : ℂ) * Complex.I) (n := 2)
    (by rw [ha]; have := Real.pi_pos; linarith)
    (by rw [ha])
  have h2 : (((√q : ℝ) : ℂ) * Complex.I) ^ 2 = -q := by
    rw [mul_pow, ← Complex.ofReal_pow, Real.sq_sqrt hq.le, Complex.I_sq, mul_neg_one]
  rw [h2] at h
  exact h

/-- The value of the table for real strength and length. -/
theorem typeMatrix_eval {t : Str} {m : ExM ℝ} (ht : typeMatrix t = some m) (ρ : Str → ℂ) (k L : ℝ)
    (hk : ρ "K1".toList = k) (hL : ρ "L".toList = L) (h0 : t = "quadrupole".toList → k ≠ 0) :
    evalM ρ m = (transfer t k L).map (fun x : ℝ => (x : ℂ)) := by
  unfold typeMatrix at ht
  unfold transfer
  split_ifs at ht ⊢ with h1 h2 h3 h4
  · simp only [Option.some.injEq] at ht
    subst ht
    have hs : (√k : ℂ) ≠ 0 := by
      rw [Ne, Complex.ofReal_eq_zero]
      exact (Real.sqrt_pos.mpr h2).ne'
    rw [evalM_quad, hk, hL, root_neg k h2, root_pos k h2]
    ext i j
    fin_cases i <;> fin_cases j <;>
      simp [quadC, focusSpec, mul_right_comm _ Complex.I, Complex.cosh_mul_I, Complex.sinh_mul_I]
    all_goals first
      | (rw [mul_div_mul_right _ _ Complex.I_ne_zero])
      | (linear_combination (√k * Complex.sin (√k * L) : ℂ) * Complex.I_sq)
  · simp only [Option.some.injEq] at ht
    subst ht
    have h3' : 0 < -k := by linarith
    have hs : (√(-k) : ℂ) ≠ 0 := by
      rw [Ne, Complex.ofReal_eq_zero]
      exact (Real.sqrt_pos.mpr h3').ne'
    have hq := root_neg (-k) h3'
    have hp := root_pos (-k) h3'
    rw [Complex.ofReal_neg, neg_neg] at hq
    rw [Complex.ofReal_neg] at hp
    rw [evalM_quad, hk, hL, hp, hq]
    ext i j
    fin_cases i <;> fin_cases j <;>
      simp [quadC, defocusSpec, mul_right_comm _ Complex.I, Complex.cosh_mul_I, Complex.sinh_mul_I]
    all_goals first
      | (rw [mul_div_mul_right _ _ Complex.I_ne_zero])
      | (linear_combination (√(-k) * Complex.sin (√(-k) * L) : ℂ) * Complex.I_sq)
  · exact absurd (by linarith) (h0 h1)
  · simp only [Option.some.injEq] at ht
    subst ht
    rw [evalM_drift, hL]
    ext i j
    fin_cases i <;> fin_cases j <;> simp [driftC, driftSpec]

theorem itemMatrix_ok {name : Option Str} {ops : List (Op ℝ)} {l : Nat} (hl : l < (runOps name ops).nLine)
    {i : Item} (hi : i ∈ ((runOps name ops).line l).seq) {m : ExM ℝ}
    (hm : itemMatrix (runOps name ops) i = .ok m) :
    ∃ e, i = .elem e ∧ typeMatrix ((runOps name ops).elem e).type = some m := by
  cases i with
  | line k => simp [itemMatrix] at hm
  | elem e =>
    refine ⟨e, rfl, ?_⟩
    simp only [itemMatrix] at hm
    cases ht : typeMatrix ((runOps name ops).elem e).type with
    | none => rw [ht] at hm; simp at hm
    | some m' =>
      rw [ht] at hm
      simp only [Except.ok.injEq] at hm
      rw [← hm]
      have he := (run_wf name ops).elems l hl e hi
      rw [insertParams_only]
      · intro kv hkv
        exact lower_ne _ ((run_normal name ops e he).1.2 kv hkv)
      · unfold typeMatrix at ht
        split_ifs at ht <;> simp only [Option.some.injEq] at ht <;> subst ht
        · exact quad_only
        · exact drift_only

/-- The entries of the beamline are elements with known types, and their matrices are those of
the table. -/
theorem generateMatrix_items {name : Option Str} {ops : List (Op ℝ)} {l : Nat}
    (hl : l < (runOps name ops).nLine) {m : ExM ℝ} {vs : List Str}
    (hm : (runOps name ops).generateMatrix l = .ok (m, vs)) :
    ∃ (es : List Nat) (ms : List (ExM ℝ)), ((runOps name ops).line l).seq = es.map .elem ∧ es ≠ [] ∧
      List.Forall₂ (fun e m => typeMatrix ((runOps name ops).elem e).type = some m) es ms ∧
      concatM ms = .ok m := by
  unfold Heap.generateMatrix at hm
  cases hs : ((runOps name ops).line l).seq.mapM (itemMatrix (runOps name ops)) with
  | error e => rw [hs] at hm; cases hm
  | ok ms =>
    rw [hs] at hm
    change (concatM ms >>= fun m => Except.ok (m, variablesOf (runOps name ops) ((runOps name ops).line l).seq)) = _
      at hm
    cases hc : concatM ms with
    | error e => rw [hc] at hm; cases hm
    | ok m' =>
      rw [hc] at hm
      cases hm
      have hf := (mapM_ok _ _ _).mp hs
      have key : ∀ (s : List Item) (ms : List (ExM ℝ)),
          List.Forall₂ (fun a b => itemMatrix (runOps name ops) a = .ok b) s ms →
          (∀ i ∈ s, i ∈ ((runOps name ops).line l).seq) →
          ∃ es : List Nat, s = es.map .elem ∧
            List.Forall₂ (fun e m => typeMatrix ((runOps name ops).elem e).type = some m) es ms := by
        intro s ms hf
        induction hf with
        | nil => intro _; exact ⟨[], rfl, .nil⟩
        | cons h1 _ ih =>
          intro hmem
          obtain ⟨e, rfl, he⟩ := itemMatrix_ok hl (hmem _ (by simp)) h1
          obtain ⟨es, rfl, hes⟩ := ih fun i hi => hmem i (by simp [hi])
          exact ⟨e :: es, rfl, .cons he hes⟩
      obtain ⟨es, h1, h2⟩ := key _ ms hf fun i hi => hi
      refine ⟨es, ms, h1, ?_, h2, hc⟩
      rintro rfl
      cases h2
      simp [concatM] at hc

/-- After every history, for all numerical values `k`, `L` of the two symbols: the matrix is the
product in beam order of the transfer matrices of the element types, all of them with the same
strength `k` and length `L`, whatever parameters the elements have. -/
theorem matrix_symbols (name : Option Str) (ops : List (Op ℝ)) (l : Nat) (hl : l < (runOps name ops).nLine)
    (m : ExM ℝ) (vs : List Str) (hm : (runOps name ops).generateMatrix l = .ok (m, vs))
    (ρ : Str → ℂ) (k L : ℝ) (hk : ρ "K1".toList = k) (hL : ρ "L".toList = L) (h0 : k ≠ 0) :
    ∃ es : List Nat, ((runOps name ops).line l).seq = es.map .elem ∧
      evalM ρ m = inOrder (es.map fun e => (transfer ((runOps name ops).elem e).type k L).map fun x : ℝ => (x : ℂ)) := by
  obtain ⟨es, ms, h1, -, h2, h3⟩ := generateMatrix_items hl hm
  refine ⟨es, h1, ?_⟩
  rw [concatM_eval ρ ms m h3]
  clear h1 h3
  congr 1
  induction h2 with
  | nil => rfl
  | cons h _ ih => rw [List.map_cons, List.map_cons, ih, typeMatrix_eval h ρ k L hk hL fun _ => h0]

/-- `generate_matrix` succeeds exactly for non-empty beamlines of drifts and quadrupoles without
sub-beamlines; the arguments of the function returned are the text parameters. -/
theorem matrix_succeeds_iff (name : Option Str) (ops : List (Op ℝ)) (l : Nat)
    (hl : l < (runOps name ops).nLine) :
    (∃ r, (runOps name ops).generateMatrix l = .ok r) ↔
      ∃ es : List Nat, es ≠ [] ∧ ((runOps name ops).line l).seq = es.map .elem ∧
        ∀ e ∈ es, ((runOps name ops).elem e).type = "drift".toList ∨
          ((runOps name ops).elem e).type = "quadrupole".toList := by
  constructor
  · rintro ⟨⟨m, vs⟩, hm⟩
    obtain ⟨es, ms, h1, h2, h3, -⟩ := generateMatrix_items hl hm
    refine ⟨es, h2, h1, ?_⟩
    clear h1 h2 hm
    induction h3 with
    | nil => intro e he; simp at he
    | cons h _ ih =>
      intro e he
      rcases List.mem_cons.mp he with rfl | he
      · unfold typeMatrix at h
        split_ifs at h with h4 h5
        · exact .inr h4
        · exact .inl h5
      · exact ih e he
  · rintro ⟨es, h1, h2, h3⟩
    have key : ∀ es : List Nat, (∀ e ∈ es, ((runOps name ops).elem e).type = "drift".toList ∨
          ((runOps name ops).elem e).type = "quadrupole".toList) →
        ∃ ms : List (ExM ℝ), ms.length = es.length ∧
          (es.map Item.elem).mapM (itemMatrix (runOps name ops)) = .ok ms := by
      intro es
      induction es with
      | nil => intro _; exact ⟨[], rfl, rfl⟩
      | cons e es ih =>
        intro h
        obtain ⟨ms, h5, h6⟩ := ih fun x hx => h x (by simp [hx])
        have ht : ∃ m : ExM ℝ, typeMatrix ((runOps name ops).elem e).type = some m := by
          rcases h e (by simp) with h | h <;> rw [h]
          · exact ⟨_, by unfold typeMatrix; rw [if_neg (by decide), if_pos rfl]⟩
          · exact ⟨_, by unfold typeMatrix; rw [if_pos rfl]⟩
        obtain ⟨m, ht⟩ := ht
        refine ⟨insertParams m ((runOps name ops).elem e).params :: ms, by simp [h5], ?_⟩
        rw [List.map_cons, List.mapM_cons, h6]
        unfold itemMatrix
        simp only [ht]
        rfl
    obtain ⟨ms, h4, h5⟩ := key es h3
    unfold Heap.generateMatrix
    rw [h2, h5]
    have hc : ∃ m, concatM ms = .ok m := by
      unfold concatM
      cases hr : ms.reverse with
      | nil =>
        have : ms = [] := by simpa using hr
        rw [this] at h4
        exact absurd (List.length_eq_zero_iff.mp h4.symm) h1
      | cons x r => exact ⟨_, rfl⟩
    obtain ⟨m, hc⟩ := hc
    refine ⟨(m, variablesOf (runOps name ops) (es.map Item.elem)), ?_⟩
    change (concatM ms >>= fun m => Except.ok (m, variablesOf (runOps name ops) (es.map Item.elem))) = _
    rw [hc]
    rfl

/-- The number stored in a parameter, 0 if there is none. -/
def ownValue (x : Elem ℝ) (key : Str) : ℝ :=
  match Params.getItem x.params key with
  | some (.num v) => v
  | _ => 0

/-- Elements that all have the same length, with quadrupoles of one strength: with these values
for the symbols the matrix is the product of each element's own matrix. Missing: elements with
different values, see `matrix_values_fails`. -/
theorem matrix_common_partial (name : Option Str) (ops : List (Op ℝ)) (l : Nat)
    (hl : l < (runOps name ops).nLine) (m : ExM ℝ) (vs : List Str)
    (hm : (runOps name ops).generateMatrix l = .ok (m, vs)) (ρ : Str → ℂ) (k L : ℝ)
    (hk : ρ "K1".toList = k) (hL : ρ "L".toList = L) (h0 : k ≠ 0)
    (hs : ∀ e, Item.elem e ∈ ((runOps name ops).line l).seq →
      ((runOps name ops).elem e).type = "quadrupole".toList → ownValue ((runOps name ops).elem e) "K1".toList = k)
    (hlen : ∀ e, Item.elem e ∈ ((runOps name ops).line l).seq →
      ownValue ((runOps name ops).elem e) "L".toList = L) :
    ∃ es : List Nat, ((runOps name ops).line l).seq = es.map .elem ∧
      evalM ρ m = inOrder (es.map fun e =>
        (transfer ((runOps name ops).elem e).type (ownValue ((runOps name ops).elem e) "K1".toList)
          (ownValue ((runOps name ops).elem e) "L".toList)).map fun x : ℝ => (x : ℂ)) := by
  obtain ⟨es, h1, h2⟩ := matrix_symbols name ops l hl m vs hm ρ k L hk hL h0
  refine ⟨es, h1, ?_⟩
  rw [h2]
  congr 1
  refine List.map_congr_left fun e he => ?_
  have hmem : Item.elem e ∈ ((runOps name ops).line l).seq := by rw [h1]; exact List.mem_map_of_mem he
  rw [hlen e hmem]
  by_cases ht : ((runOps name ops).elem e).type = "quadrupole".toList
  · rw [hs e hmem ht]
  · unfold transfer
    rw [if_neg ht, if_neg ht]

theorem inOrder_drifts (L : ℂ) : ∀ n : Nat, inOrder (List.replicate n (driftC L)) = driftC (n * L)
  | 0 => by
    ext i j
    fin_cases i <;> fin_cases j <;> simp [inOrder, driftC]
  | n + 1 => by
    rw [List.replicate_succ, inOrder, inOrder_drifts L n]
    ext i j
    fin_cases i <;> fin_cases j <;> simp [driftC, Matrix.mul_apply, Fin.sum_univ_four] <;> ring

/-- False for every beamline made of drifts, whatever their lengths: the matrix moves by `n`
times the value of the free symbol `L`, so no distance `v` is right for all values of it. -/
theorem matrix_values_fails (name : Option Str) (ops : List (Op ℝ)) (l : Nat)
    (hl : l < (runOps name ops).nLine) (m : ExM ℝ) (vs : List Str)
    (hm : (runOps name ops).generateMatrix l = .ok (m, vs))
    (hd : ∀ e, Item.elem e ∈ ((runOps name ops).line l).seq → ((runOps name ops).elem e).type = "drift".toList) :
    (∀ ρ, evalM ρ m 0 1 = ((runOps name ops).line l).seq.length * ρ "L".toList) ∧
      ∀ v : ℂ, ∃ ρ, evalM ρ m 0 1 ≠ v := by
  obtain ⟨es, ms, h1, h2, h3, h4⟩ := generateMatrix_items hl hm
  have hms : ms = List.replicate es.length driftMatrix := by
    rw [h1] at hd
    clear h1 h2 h4
    induction h3 with
    | nil => rfl
    | cons h _ ih =>
      rw [List.length_cons, List.replicate_succ, ← ih fun e he => hd e (by simp at he ⊢; exact .inr he)]
      rw [hd _ (by simp)] at h
      unfold typeMatrix at h
      rw [if_neg (by decide), if_pos rfl] at h
      rw [← Option.some.inj h]
  have hval : ∀ ρ, evalM ρ m 0 1 = ((runOps name ops).line l).seq.length * ρ "L".toList := by
    intro ρ
    rw [concatM_eval ρ ms m h4, hms, List.map_replicate, evalM_drift, inOrder_drifts, h1, List.length_map]
    simp [driftC]
  refine ⟨hval, fun v => ?_⟩
  have hn : (es.length : ℂ) ≠ 0 := by
    rw [Nat.cast_ne_zero, Ne, List.length_eq_zero_iff]
    exact h2
  refine ⟨fun _ => (v + 1) / es.length, ?_⟩
  rw [hval, h1, List.length_map, mul_div_cancel₀ _ hn]
  intro h
  exact one_ne_zero (α := ℂ) (by linear_combination h)

/-- Two elements with different lengths. -/
def exMatrix : List (Op ℝ) :=
  [.addElement 0 "a".toList "drift".toList [("L".toList, .num 1)] false,
   .addElement 0 "q".toList "QUADRUPOLE".toList [("L".toList, .num 2), ("K1".toList, .str "k".toList)] false]

/-- `generate_matrix` succeeds for the example, so the hypotheses above can be met. -/
example : ∃ r, (runOps none exMatrix).generateMatrix 0 = .ok r := by
  rw [matrix_succeeds_iff none exMatrix 0 (run_wf none exMatrix).pos]
  refine ⟨[0, 1], by simp, by rfl, ?_⟩
  intro e he
  rcases List.mem_cons.mp he with rfl | he
  · exact .inl (by rfl)
  · rcases List.mem_cons.mp he with rfl | he
    · exact .inr (by rfl)
    · simp at he

/-- A quadrupole and a drift of the same length: the hypotheses of `matrix_common_partial`. -/
def exCommon : List (Op ℝ) :=
  [.addElement 0 "a".toList "drift".toList [("L".toList, .num 2)] false,
   .addElement 0 "q".toList "QUADRUPOLE".toList [("L".toList, .num 2), ("k1".toList, .num 3)] false]

example : ((runOps none exCommon).line 0).seq = [.elem 0, .elem 1] ∧
    ownValue ((runOps none exCommon).elem 0) "L".toList = 2 ∧
    ownValue ((runOps none exCommon).elem 1) "L".toList = 2 ∧
    ownValue ((runOps none exCommon).elem 1) "K1".toList = 3 ∧
    ((runOps none exCommon).elem 1).type = "quadrupole".toList := ⟨rfl, rfl, rfl, rfl, rfl⟩

/-- Two drifts of lengths 1 and 5: the hypothesis of `matrix_values_fails`. -/
def exDrifts : List (Op ℝ) :=
  [.addElement 0 "a".toList "drift".toList [("L".toList, .num 1)] false,
   .addElement 0 "b".toList "drift".toList [("L".toList, .num 5)] false]

example : ((runOps none exDrifts).line 0).seq = [.elem 0, .elem 1] ∧
    ((runOps none exDrifts).elem 0).type = "drift".toList ∧
    ((runOps none exDrifts).elem 1).type = "drift".toList := ⟨rfl, rfl, rfl⟩

/-! ## C67 -/

/-- The generator of the motion: `x'' = - k x`, `y'' = k y` in a quadrupole, no force in a drift. -/
def generator (type : Str) (k : ℝ) : Matrix (Fin 4) (Fin 4) ℝ :=
  if type = "quadrupole".toList then
    !![0, 1, 0, 0;
       -k, 0, 0, 0;
       0, 0, 0, 1;
       0, 0, k, 0]
  else
    !![0, 1, 0, 0;
       0, 0, 0, 0;
       0, 0, 0, 1;
       0, 0, 0, 0]

/-- The transfer matrices solve the equations of motion, from the identity at length 0. -/
theorem transfer_motion (type : Str) (k L : ℝ) (hk : type = "quadrupole".toList → k ≠ 0) :
    transfer type k 0 = 1 ∧
      ∀ i j, HasDerivAt (fun s => transfer type k s i j) ((generator type k * transfer type k L) i j) L := by
  have cosD : ∀ a : ℝ, HasDerivAt (fun s => Real.cos (a * s)) (-a * Real.sin (a * L)) L := by
    intro a
    have := ((hasDerivAt_id L).const_mul a).cos
    simp only [mul_one, id] at this
    exact this.congr_deriv (by ring)
  have sinD : ∀ a : ℝ, HasDerivAt (fun s => Real.sin (a * s)) (a * Real.cos (a * L)) L := by
    intro a
    have := ((hasDerivAt_id L).const_mul a).sin
    simp only [mul_one, id] at this
    exact this.congr_deriv (by ring)
  have coshD : ∀ a : ℝ, HasDerivAt (fun s => Real.cosh (a * s)) (a * Real.sinh (a * L)) L := by
    intro a
    have := ((hasDerivAt_id L).const_mul a).cosh
    simp only [mul_one, id] at this
    exact this.congr_deriv (by ring)
  have sinhD : ∀ a : ℝ, HasDerivAt (fun s => Real.sinh (a * s)) (a * Real.cosh (a * L)) L := by
    intro a
    have := ((hasDerivAt_id L).const_mul a).sinh
    simp only [mul_one, id] at this
    exact this.congr_deriv (by ring)
  have sinQ : ∀ a : ℝ, a ≠ 0 → HasDerivAt (fun s => Real.sin (a * s) / a) (Real.cos (a * L)) L := by
    intro a ha
    refine HasDerivAt.congr_deriv ((sinD a).div_const a) ?_
    rw [mul_div_cancel_left₀ _ ha]
  have sinhQ : ∀ a : ℝ, a ≠ 0 → HasDerivAt (fun s => Real.sinh (a * s) / a) (Real.cosh (a * L)) L := by
    intro a ha
    refine HasDerivAt.congr_deriv ((sinhD a).div_const a) ?_
    rw [mul_div_cancel_left₀ _ ha]
  unfold transfer generator
  split_ifs with h1 h2 h3
  · have hs : √k ≠ 0 := (Real.sqrt_pos.mpr h2).ne'
    have hq := Real.mul_self_sqrt (h2).le
    refine ⟨?_, ?_⟩
    · ext i j
      fin_cases i <;> fin_cases j <;> simp [focusSpec]
    · intro i j
      fin_cases i <;> fin_cases j <;>
        simp only [focusSpec, Matrix.mul_apply, Fin.sum_univ_four, Matrix.of_apply, Matrix.cons_val',
          Matrix.cons_val_zero, Matrix.cons_val_one, Matrix.cons_val, Fin.zero_eta, Fin.mk_one, Fin.reduceFinMk,
          zero_mul, one_mul, zero_add, add_zero, mul_zero, neg_zero]
      all_goals first
        | exact hasDerivAt_const _ _
        | exact cosD _
        | exact coshD _
        | exact sinQ _ hs
        | exact sinhQ _ hs
        | (refine HasDerivAt.congr_deriv ((sinD (√k)).const_mul (-√k)) ?_
           linear_combination (-Real.cos (√k * L)) * hq)
        | (refine HasDerivAt.congr_deriv ((sinhD (√k)).const_mul (√k)) ?_
           linear_combination (Real.cosh (√k * L)) * hq)
        | (refine HasDerivAt.congr_deriv (cosD (√k)) ?_
           rw [eq_comm, mul_div_assoc', div_eq_iff hs]
           linear_combination (Real.sin (√k * L)) * hq)
        | (refine HasDerivAt.congr_deriv (coshD (√k)) ?_
           rw [eq_comm, mul_div_assoc', div_eq_iff hs]
           linear_combination (-Real.sinh (√k * L)) * hq)
  · have h3' : 0 < -k := by linarith
    have hs : √(-k) ≠ 0 := (Real.sqrt_pos.mpr h3').ne'
    have hq := Real.mul_self_sqrt (h3').le
    refine ⟨?_, ?_⟩
    · ext i j
      fin_cases i <;> fin_cases j <;> simp [defocusSpec]
    · intro i j
      fin_cases i <;> fin_cases j <;>
        simp only [defocusSpec, Matrix.mul_apply, Fin.sum_univ_four, Matrix.of_apply, Matrix.cons_val',
          Matrix.cons_val_zero, Matrix.cons_val_one, Matrix.cons_val, Fin.zero_eta, Fin.mk_one, Fin.reduceFinMk,
          zero_mul, one_mul, zero_add, add_zero, mul_zero, neg_zero]
      all_goals first
        | exact hasDerivAt_const _ _
        | exact cosD _
        | exact coshD _
        | exact sinQ _ hs
        | exact sinhQ _ hs
        | (refine HasDerivAt.congr_deriv ((sinD (√(-k))).const_mul (-√(-k))) ?_
           linear_combination (-Real.cos (√(-k) * L)) * hq)
        | (refine HasDerivAt.congr_deriv ((sinhD (√(-k))).const_mul (√(-k))) ?_
           linear_combination (Real.cosh (√(-k) * L)) * hq)
        | (refine HasDerivAt.congr_deriv (cosD (√(-k))) ?_
           rw [eq_comm, mul_div_assoc', div_eq_iff hs]
           linear_combination (Real.sin (√(-k) * L)) * hq)
        | (refine HasDerivAt.congr_deriv (coshD (√(-k))) ?_
           rw [eq_comm, mul_div_assoc', div_eq_iff hs]
           linear_combination (-Real.sinh (√(-k) * L)) * hq)
  · exact absurd (by linarith) (hk h1)
  · refine ⟨?_, ?_⟩
    · ext i j
      fin_cases i <;> fin_cases j <;> simp [driftSpec]
    · intro i j
      fin_cases i <;> fin_cases j <;>
        simp only [driftSpec, Matrix.mul_apply, Fin.sum_univ_four, Matrix.of_apply, Matrix.cons_val',
          Matrix.cons_val_zero, Matrix.cons_val_one, Matrix.cons_val, Fin.zero_eta, Fin.mk_one, Fin.reduceFinMk,
          zero_mul, one_mul, zero_add, add_zero, mul_zero, neg_zero]
      all_goals first
        | exact hasDerivAt_const _ _
        | exact hasDerivAt_id' _

/-- The form `x p' - p x'` in both planes. -/
def symplecticForm : Matrix (Fin 4) (Fin 4) ℂ :=
  !![0, 1, 0, 0;
     -1, 0, 0, 0;
     0, 0, 0, 1;
     0, 0, -1, 0]

theorem symplectic_blocks (a b c d e f g h : ℂ) (h1 : a * d - b * c = 1) (h2 : e * h - f * g = 1) :
    (!![a, b, 0, 0; c, d, 0, 0; 0, 0, e, f; 0, 0, g, h] : Matrix (Fin 4) (Fin 4) ℂ)ᵀ * symplecticForm *
      !![a, b, 0, 0; c, d, 0, 0; 0, 0, e, f; 0, 0, g, h] = symplecticForm := by
  ext i j
  fin_cases i <;> fin_cases j <;>
    simp [symplecticForm, Matrix.mul_apply, Fin.sum_univ_four] <;>
    first
    | linear_combination h1
    | linear_combination -h1
    | linear_combination h2
    | linear_combination -h2
    | ring1

theorem symplectic_inOrder : ∀ ms : List (Matrix (Fin 4) (Fin 4) ℂ),
    (∀ m ∈ ms, mᵀ * symplecticForm * m = symplecticForm) →
    (inOrder ms)ᵀ * symplecticForm * inOrder ms = symplecticForm
  | [], _ => by simp [inOrder]
  | m :: ms, h => by
    have ih := symplectic_inOrder ms fun x hx => h x (by simp [hx])
    rw [inOrder, Matrix.transpose_mul]
    calc mᵀ * (inOrder ms)ᵀ * symplecticForm * (inOrder ms * m)
        = mᵀ * ((inOrder ms)ᵀ * symplecticForm * inOrder ms) * m := by simp only [Matrix.mul_assoc]
      _ = symplecticForm := by rw [ih, h m (by simp)]

/-- The matrix of every beamline is symplectic, for all values of the symbols with `K1` not 0:
phase space areas are conserved. -/
theorem matrix_symplectic (name : Option Str) (ops : List (Op ℝ)) (l : Nat)
    (hl : l < (runOps name ops).nLine) (m : ExM ℝ) (vs : List Str)
    (hm : (runOps name ops).generateMatrix l = .ok (m, vs)) (ρ : Str → ℂ) (h0 : ρ "K1".toList ≠ 0) :
    (evalM ρ m)ᵀ * symplecticForm * evalM ρ m = symplecticForm := by
  obtain ⟨es, ms, -, -, h2, h3⟩ := generateMatrix_items hl hm
  rw [concatM_eval ρ ms m h3]
  apply symplectic_inOrder
  intro x hx
  obtain ⟨y, hy, rfl⟩ := List.mem_map.mp hx
  have hmem : y = quadMatrix ∨ y = driftMatrix := by
    clear h3 hx
    induction h2 with
    | nil => simp at hy
    | cons h _ ih =>
      rcases List.mem_cons.mp hy with rfl | hy
      · unfold typeMatrix at h
        split_ifs at h
        · exact .inl (Option.some.inj h).symm
        · exact .inr (Option.some.inj h).symm
      · exact ih hy
  rcases hmem with rfl | rfl
  · have hp : (-ρ "K1".toList) ^ (2⁻¹ : ℂ) ≠ 0 := by
      rw [Ne, Complex.cpow_eq_zero_iff]
      exact fun h => h0 (neg_eq_zero.mp h.1)
    have hq : (ρ "K1".toList) ^ (2⁻¹ : ℂ) ≠ 0 := by
      rw [Ne, Complex.cpow_eq_zero_iff]
      exact fun h => h0 h.1
    rw [evalM_quad]
    refine symplectic_blocks _ _ _ _ _ _ _ _ ?_ ?_
    · rw [div_mul_eq_mul_div, mul_comm _ (_ * Complex.sinh _), mul_assoc, mul_div_cancel_left₀ _ hp]
      linear_combination Complex.cosh_sq_sub_sinh_sq ((-ρ "K1".toList) ^ (2⁻¹ : ℂ) * ρ "L".toList)
    · rw [div_mul_eq_mul_div, mul_comm _ (_ * Complex.sinh _), mul_assoc, mul_div_cancel_left₀ _ hq]
      linear_combination Complex.cosh_sq_sub_sinh_sq ((ρ "K1".toList) ^ (2⁻¹ : ℂ) * ρ "L".toList)
  · rw [evalM_drift]
    exact symplectic_blocks _ _ _ _ _ _ _ _ (by ring) (by ring)

/-- Cutting an element in two does not change the motion. -/
theorem transfer_split (type : Str) (k L₁ L₂ : ℝ) (hk : type = "quadrupole".toList → k ≠ 0) :
    transfer type k (L₁ + L₂) = transfer type k L₂ * transfer type k L₁ := by
  unfold transfer
  split_ifs with h1 h2 h3
  · have hs : √k ≠ 0 := (Real.sqrt_pos.mpr h2).ne'
    ext i j
    fin_cases i <;> fin_cases j <;>
      simp [focusSpec, Matrix.mul_apply, Fin.sum_univ_four, mul_add, Real.cos_add, Real.sin_add, Real.cosh_add,
        Real.sinh_add] <;> field_simp <;> ring
  · have hs : √(-k) ≠ 0 := (Real.sqrt_pos.mpr (by linarith)).ne'
    ext i j
    fin_cases i <;> fin_cases j <;>
      simp [defocusSpec, Matrix.mul_apply, Fin.sum_univ_four, mul_add, Real.cos_add, Real.sin_add, Real.cosh_add,
        Real.sinh_add] <;> field_simp <;> ring
  · exact absurd (by linarith) (hk h1)
  · ext i j
    fin_cases i <;> fin_cases j <;> simp [driftSpec, Matrix.mul_apply, Fin.sum_univ_four] <;> ring

/-- Two quadrupoles in a row with the same symbols: hypotheses of `matrix_symplectic` and
`transfer_split` are met, for example with strength 2. -/
example : ("quadrupole".toList = "quadrupole".toList → (2 : ℝ) ≠ 0) := by norm_num

example : evalM (fun _ => (2 : ℝ)) quadMatrix = (transfer "quadrupole".toList 2 2).map (fun x : ℝ => (x : ℂ)) :=
  typeMatrix_eval (t := "quadrupole".toList) rfl (fun _ => (2 : ℝ)) 2 2 rfl rfl (by norm_num)

/-- A drift and a quadrupole, both symbols with the value 2. -/
example : ∃ (m : ExM ℝ) (vs : List Str) (es : List Nat), (runOps none exMatrix).generateMatrix 0 = .ok (m, vs) ∧
    ((runOps none exMatrix).line 0).seq = es.map .elem ∧
    evalM (fun _ => (2 : ℝ)) m = inOrder (es.map fun e => (transfer ((runOps none exMatrix).elem e).type 2 2).map fun x : ℝ => (x : ℂ)) ∧
    (evalM (fun _ => (2 : ℝ)) m)ᵀ * symplecticForm * evalM (fun _ => (2 : ℝ)) m = symplecticForm := by
  obtain ⟨⟨m, vs⟩, h⟩ : ∃ r, (runOps none exMatrix).generateMatrix 0 = .ok r := by
    rw [matrix_succeeds_iff none exMatrix 0 (run_wf none exMatrix).pos]
    refine ⟨[0, 1], by simp, by rfl, ?_⟩
    intro e he
    simp only [List.mem_cons, List.not_mem_nil, or_false] at he
    rcases he with rfl | rfl
    · exact .inl (by rfl)
    · exact .inr (by rfl)
  obtain ⟨es, h1, h2⟩ := matrix_symbols none exMatrix 0 (run_wf none exMatrix).pos m vs h (fun _ => (2 : ℝ)) 2 2 rfl rfl (by norm_num)
  exact ⟨m, vs, es, h, h1, h2, matrix_symplectic none exMatrix 0 (run_wf none exMatrix).pos m vs h _ (by norm_num)⟩

example : transfer "quadrupole".toList (-3) 0 = 1 := (transfer_motion "quadrupole".toList (-3) 1 (by norm_num)).1

end Verif.Lattice
