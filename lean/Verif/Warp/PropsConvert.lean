import Verif.Warp.Convert
import Verif.Warp.Props
import Verif.Lattice.Lemmas
import Mathlib.Tactic.FieldSimp
import Mathlib.Tactic.Ring
import Mathlib.Tactic.Linarith
import Mathlib.Tactic.LinearCombination

/-! # Properties C40, C72 and C73: gradients and the conversion of elegant lattices to Warp -/

namespace Verif.Warp

open Verif.Lattice Verif.Import

/-! ## C40 -/

/-- Total energy `E` of a particle with momentum `P` and mass `m`, in eV. -/
def EnergyOf (P m E : ℝ) : Prop := 0 ≤ E ∧ E ^ 2 = P ^ 2 + m ^ 2

/-- Magnetic rigidity of a particle of one elementary charge with momentum `P` in eV/c: momentum in
SI units over charge. -/
noncomputable def rigidity (C : Env) (P : ℝ) : ℝ := (P * C.e / C.c) / C.e

/-- The value for every order: the strength times a power of the rigidity. -/
theorem gradient_exact (C : Env) (he : 0 < C.e) (hc : 0 < C.c) {P m E : ℝ} (hP : 0 ≤ P) (hm : 0 < m) (hE : EnergyOf P m E) (k : ℝ) (n : ℕ) :
    getGradient C k E m n = k * rigidity C P ^ n := by
  obtain ⟨hE0, hE2⟩ := hE
  have hEpos : 0 < E := by
    rcases hE0.lt_or_eq with h | h
    · exact h
    · rw [← h] at hE2; nlinarith [sq_nonneg P, sq_pos_of_pos hm]
  have hs : √(1 - 1 / (E / m) ^ 2) = P / E := by
    have : 1 - 1 / (E / m) ^ 2 = (P / E) ^ 2 := by
      field_simp
      linarith
    rw [this]
    exact Real.sqrt_sq (by positivity)
  unfold getGradient rigidity
  simp only
  rw [hs]
  congr 2
  field_simp

/-- C40 for quadrupoles: the gradient is the strength times the rigidity. -/
theorem gradient_partial (C : Env) (he : 0 < C.e) (hc : 0 < C.c) {P m E : ℝ} (hP : 0 ≤ P) (hm : 0 < m) (hE : EnergyOf P m E) (k : ℝ) :
    getGradient C k E m 1 = k * rigidity C P := by
  rw [gradient_exact C he hc hP hm hE, pow_one]

/-- C40 fails for sextupoles, except for no strength and the rigidities 0 and 1 T·m. -/
theorem gradient_fails (C : Env) (he : 0 < C.e) (hc : 0 < C.c) {P m E : ℝ} (hP : 0 ≤ P) (hm : 0 < m) (hE : EnergyOf P m E) (k : ℝ) :
    getGradient C k E m 2 = k * rigidity C P ↔ k = 0 ∨ rigidity C P = 0 ∨ rigidity C P = 1 := by
  rw [gradient_exact C he hc hP hm hE]
  constructor
  · intro h
    have : k * (rigidity C P * (rigidity C P - 1)) = 0 := by linear_combination h
    rcases mul_eq_zero.1 this with h | h
    · exact .inl h
    · rcases mul_eq_zero.1 h with h | h
      · exact .inr (.inl h)
      · exact .inr (.inr (by linarith))
  · rintro (h | h | h) <;> rw [h] <;> ring

/-- A beam of 4 eV/c momentum and mass 3 eV has 5 eV. -/
example : EnergyOf 4 3 5 := ⟨by norm_num, by norm_num⟩

/-! ## Conversion of the elements -/

theorem dset_dset {K V : Type} [DecidableEq K] (d : Dict K V) (k : K) (v : V) : dset (dset d k v) k v = dset d k v := by
  induction d with
  | nil => simp [dset]
  | cons p d ih =>
    by_cases h : p.1 = k
    · simp [dset, h]
    · simp [dset, h, ih]

theorem getItem_setParam (x : Elem ℝ) (key k : Str) (v : ℝ) :
    Params.getItem (setParam x key v).params k = if lower k = lower key then some (.num v) else Params.getItem x.params k := by
  unfold setParam
  simp only
  rw [getItem_setItem]
  simp only [eq_comm]

theorem getFloat_setParam (C : Env) (x : Elem ℝ) (key k : Str) (v : ℝ) (h : lower k ≠ lower key) :
    getFloat C (setParam x key v) k = getFloat C x k := by
  unfold getFloat
  rw [getItem_setParam, if_neg h]

theorem setParam_setParam (x : Elem ℝ) (key : Str) (v : ℝ) : setParam (setParam x key v) key v = setParam x key v := by
  unfold setParam Params.setItem
  simp only
  rw [dset_dset]

theorem convertElem_name {C : Env} {E m sgn : ℝ} {x y : Elem ℝ} (h : convertElem C E m sgn x = .ok y) : y.name = x.name ∧ y.type = x.type := by
  unfold convertElem at h
  split_ifs at h
  · split at h
    · cases h; exact ⟨rfl, rfl⟩
    · cases h
  · split at h
    · cases h
    · split at h
      · cases h
      · split_ifs at h
        cases h; exact ⟨rfl, rfl⟩
  · split at h
    · cases h; exact ⟨rfl, rfl⟩
    · cases h
  · cases h; exact ⟨rfl, rfl⟩

/-- Converting twice is converting once. -/
theorem convertElem_again {C : Env} {E m sgn : ℝ} {x y : Elem ℝ} (h : convertElem C E m sgn x = .ok y) : convertElem C E m sgn y = .ok y := by
  have ht := (convertElem_name h).2
  unfold convertElem at h ⊢
  rw [ht]
  split_ifs at h ⊢ with h1 h2 h3
  · cases hk : getFloat C x "k1".toList with
    | error e => rw [hk] at h; cases h
    | ok k =>
      rw [hk] at h
      cases h
      rw [getFloat_setParam C x _ _ _ (by decide), hk]
      simp only
      rw [setParam_setParam]
  · cases hk : getFloat C x "l".toList with
    | error e => rw [hk] at h; cases h
    | ok l =>
      rw [hk] at h
      simp only at h
      cases ha : getFloat C x "angle".toList with
      | error e => rw [ha] at h; cases h
      | ok a =>
        rw [ha] at h
        simp only at h
        split_ifs at h with h0
        cases h
        rw [getFloat_setParam C x _ _ _ (by decide), getFloat_setParam C x _ _ _ (by decide), hk, ha]
        simp only
        rw [if_neg h0, setParam_setParam]
  · cases hk : getFloat C x "k2".toList with
    | error e => rw [hk] at h; cases h
    | ok k =>
      rw [hk] at h
      cases h
      rw [getFloat_setParam C x _ _ _ (by decide), hk]
      simp only
      rw [setParam_setParam]
  · rfl

/-- Every element is converted once, however often it is used. -/
theorem convertAll_elem {C : Env} {E m sgn : ℝ} (es : List Nat) (h h' : Heap ℝ) (hr : convertAll C E m sgn es h = .ok h') :
    (∀ e ∈ es, convertElem C E m sgn (h.elem e) = .ok (h'.elem e)) ∧ ∀ e, e ∉ es → h'.elem e = h.elem e := by
  induction es generalizing h with
  | nil => cases hr; exact ⟨by simp, fun _ _ => rfl⟩
  | cons i is ih =>
    unfold convertAll at hr
    cases hx : convertElem C E m sgn (h.elem i) with
    | error e => rw [hx] at hr; cases hr
    | ok x =>
      rw [hx] at hr
      simp only at hr
      obtain ⟨h1, h2⟩ := ih _ hr
      have hself : (h.setElem i x).elem i = x := if_pos rfl
      have hother : ∀ e, e ≠ i → (h.setElem i x).elem e = h.elem e := fun e he => if_neg he
      have hi : h'.elem i = x := by
        by_cases hm : i ∈ is
        · have := h1 i hm
          rw [hself, convertElem_again hx] at this
          cases this; rfl
        · rw [h2 i hm, hself]
      constructor
      · intro e he
        by_cases hei : e = i
        · subst hei; rw [hi]; exact hx
        · rw [← hother e hei]
          exact h1 e (by simpa [hei] using he)
      · intro e he
        simp only [List.mem_cons, not_or] at he
        rw [h2 e he.2, hother e he.1]

/-! ## C72 -/

/-- The whole conversion: the text has the definitions of the converted elements of the imported beamline. -/
theorem elegantToWarp_ok {C : Env} {F : Fmt ℝ} {J : Json ℝ} {pMev : Option ℝ} {d : Nat} {name text : Str}
    (hr : elegantToWarp C F J pMev d name = .ok text) :
    ∃ (p : ℝ) (h : Heap ℝ) (es : List Nat) (h' : Heap ℝ), pMev = some p ∧ parseJson J d (upper name) = .ok h ∧ h.elementsOf d 0 = some es ∧
      (∀ e ∈ es, convertElem C (p * 1000000) C.mass (-1) (h.elem e) = .ok (h'.elem e)) ∧
      ∃ known, writeFile F fieldMap (upper name) (es.map h'.elem) [] = (known, .ok text) := by
  unfold elegantToWarp at hr
  cases pMev with
  | none => cases hr
  | some p =>
    simp only at hr
    cases hp : parseJson J d (upper name) with
    | error e => rw [hp] at hr; cases hr
    | ok h =>
      rw [hp] at hr
      simp only at hr
      cases hes : h.elementsOf d 0 with
      | none => rw [hes] at hr; cases hr
      | some es =>
        rw [hes] at hr
        simp only at hr
        unfold convertWrite at hr
        rw [show (1 - 2 * 1 : ℝ) = -1 by norm_num] at hr
        cases hc : convertAll C (p * 1000000) C.mass (-1) es h with
        | error e => rw [hc] at hr; cases hr
        | ok h' =>
          rw [hc] at hr
          simp only at hr
          exact ⟨p, h, es, h', rfl, rfl, hes, (convertAll_elem es h h' hc).1, _, Prod.ext rfl hr⟩

/-- C72 fails for every beam: the gradient written for a quadrupole is that of a beam whose total
energy, not momentum, is the central momentum. -/
theorem central_momentum_fails {C : Env} (he : 0 < C.e) (hc : 0 < C.c) (hm : 0 < C.mass) {F : Fmt ℝ} {J : Json ℝ} {p : ℝ}
    (hp : C.mass ≤ p * 1000000) {d : Nat} {name text : Str} (hr : elegantToWarp C F J (some p) d name = .ok text) :
    ∃ (h : Heap ℝ) (es : List Nat) (h' : Heap ℝ), parseJson J d (upper name) = .ok h ∧ h.elementsOf d 0 = some es ∧
      (∃ known, writeFile F fieldMap (upper name) (es.map h'.elem) [] = (known, .ok text)) ∧
      ∀ e ∈ es, ((h.elem e).type = "quad".toList ∨ (h.elem e).type = "kquad".toList) →
        ∃ k g, getFloat C (h.elem e) "k1".toList = .ok k ∧ Params.getItem (h'.elem e).params "db".toList = some (.num g) ∧
          g = -(k * rigidity C (√((p * 1000000) ^ 2 - C.mass ^ 2))) ∧ (k ≠ 0 → |g| < |k| * rigidity C (p * 1000000)) := by
  obtain ⟨p', h, es, h', hp', h1, h2, h3, h4⟩ := elegantToWarp_ok hr
  cases hp'
  refine ⟨h, es, h', h1, h2, h4, ?_⟩
  intro e hmem ht
  have hcv := h3 e hmem
  unfold convertElem at hcv
  rw [if_pos ht.symm] at hcv
  cases hk : getFloat C (h.elem e) "k1".toList with
  | error err => rw [hk] at hcv; cases hcv
  | ok k =>
    rw [hk] at hcv
    simp only [Except.ok.injEq] at hcv
    set q := p * 1000000 with hq
    have hq0 : 0 < q := lt_of_lt_of_le hm hp
    have hE : EnergyOf (√(q ^ 2 - C.mass ^ 2)) C.mass q := by
      refine ⟨hq0.le, ?_⟩
      rw [Real.sq_sqrt (by nlinarith)]; ring
    have hg := gradient_partial C he hc (Real.sqrt_nonneg _) hm hE k
    refine ⟨k, -1 * getGradient C k q C.mass 1, rfl, ?_, ?_, ?_⟩
    · rw [← hcv, getItem_setParam, if_pos rfl]
    · rw [hg]; ring
    · intro hk0
      rw [hg, abs_mul, abs_neg, abs_one, one_mul, abs_mul]
      have hpos : 0 ≤ rigidity C (√(q ^ 2 - C.mass ^ 2)) := by unfold rigidity; positivity
      rw [abs_of_nonneg hpos]
      refine mul_lt_mul_of_pos_left ?_ (abs_pos.2 hk0)
      have hlt : √(q ^ 2 - C.mass ^ 2) < q := by
        rw [Real.sqrt_lt' hq0]; nlinarith
      unfold rigidity
      gcongr

/-! ## C73 -/

/-- Types that the writer supports but that get no bending radius or gradient. -/
def forgotten : List (Str × Str) :=
  [("sben".toList, "rc".toList), ("csrcsbend".toList, "rc".toList), ("ksbend".toList, "rc".toList), ("nibend".toList, "rc".toList),
   ("tubend".toList, "rc".toList), ("ksext".toList, "db".toList)]

theorem forgotten_facts : ∀ tp ∈ forgotten, tp.1 ≠ "kquad".toList ∧ tp.1 ≠ "quad".toList ∧ tp.1 ≠ "csbend".toList ∧ tp.1 ≠ "rben".toList ∧
    tp.1 ≠ "sext".toList ∧ ∃ t ps, dget fieldMap (upper tp.1) = some (t, ps) ∧ tp.2 ∈ ps := by
  intro tp htp
  have key : ∀ tp ∈ forgotten, tp.1 ≠ "kquad".toList ∧ tp.1 ≠ "quad".toList ∧ tp.1 ≠ "csbend".toList ∧ tp.1 ≠ "rben".toList ∧
    tp.1 ≠ "sext".toList ∧ ((dget fieldMap (upper tp.1)).map fun x => decide (tp.2 ∈ x.2)) = some true := by decide +kernel
  obtain ⟨h1, h2, h3, h4, h5, h6⟩ := key tp htp
  refine ⟨h1, h2, h3, h4, h5, ?_⟩
  cases hd : dget fieldMap (upper tp.1) with
  | none => rw [hd] at h6; cases h6
  | some x =>
    rw [hd] at h6
    obtain ⟨t, ps⟩ := x
    exact ⟨t, ps, rfl, by simpa using h6⟩

/-- C73 fails for every lattice with an element of these types: nothing is written. -/
theorem supported_fails {C : Env} {F : Fmt ℝ} {p : ℝ} {name : Str} {h : Heap ℝ} {es : List Nat} {e : Nat} {tp : Str × Str}
    (htp : tp ∈ forgotten) (ht : (h.elem e).type = tp.1) (hn : Params.getItem (h.elem e).params tp.2 = none)
    (hf : (es.map h.elem).find? (fun y => upper y.name = upper (h.elem e).name) = some (h.elem e)) (he : e ∈ es) :
    ∃ err, convertWrite C F p name h es = .error err := by
  obtain ⟨h1, h2, h3, h4, h5, t, ps, h6, h7⟩ := forgotten_facts tp htp
  unfold convertWrite
  cases hc : convertAll C p C.mass (1 - 2 * 1) es h with
  | error err => exact ⟨err, rfl⟩
  | ok h' =>
    simp only
    refine ⟨.keyError, warp_error.2 ⟨rfl, h'.elem e, ?_, ?_, by simp⟩⟩
    all_goals
      have hcv := (convertAll_elem es h h' hc).1
      have hself : convertElem C p C.mass (1 - 2 * 1) (h.elem e) = .ok (h.elem e) := by
        unfold convertElem
        rw [ht, if_neg (not_or.2 ⟨h1, h2⟩), if_neg (not_or.2 ⟨h3, h4⟩), if_neg h5]
      have hee : h'.elem e = h.elem e := by
        have := hcv e he
        rw [hself] at this
        injection this with this
        exact this.symm
      rw [hee]
    · exact ⟨t, ps, tp.2, by rw [ht]; exact h6, h7, hn⟩
    · clear he hc
      induction es with
      | nil => cases hf
      | cons i is ih =>
        rw [List.map_cons] at hf ⊢
        have hni := (convertElem_name (hcv i (by simp))).1
        by_cases hc : upper (h.elem i).name = upper (h.elem e).name
        · rw [List.find?_cons_of_pos (by simpa using hc)] at hf
          rw [List.find?_cons_of_pos (by rw [hni]; simpa using hc)]
          injection hf with hf
          have h8 := hcv i (by simp)
          rw [hf, hself] at h8
          injection h8 with h8
          rw [← h8]
        · rw [List.find?_cons_of_neg (by simpa using hc)] at hf
          rw [List.find?_cons_of_neg (by rw [hni]; simpa using hc)]
          exact ih hf fun j hj => hcv j (by simp [hj])

/-- The element has what its type needs; elements of other types become drifts. -/
inductive Ready (C : Env) (x : Elem ℝ) : Prop
  | quad {k v} : x.type = "quad".toList ∨ x.type = "kquad".toList → getFloat C x "k1".toList = .ok k →
      Params.getItem x.params "l".toList = some v → Ready C x
  | bend {l a} : x.type = "csbend".toList ∨ x.type = "rben".toList → getFloat C x "l".toList = .ok l →
      getFloat C x "angle".toList = .ok a → a ≠ 0 → Ready C x
  | sext {k v} : x.type = "sext".toList → getFloat C x "k2".toList = .ok k → Params.getItem x.params "l".toList = some v → Ready C x
  | drift {v} : x.type ∈ ["drif".toList, "csrdrift".toList, "edrift".toList, "lscdrift".toList] →
      Params.getItem x.params "l".toList = some v → Ready C x
  | other : dget fieldMap (upper x.type) = none → Ready C x

theorem getFloat_some {C : Env} {x : Elem ℝ} {k : Str} {v : ℝ} (h : getFloat C x k = .ok v) : ∃ w, Params.getItem x.params k = some w := by
  unfold getFloat at h
  cases hg : Params.getItem x.params k with
  | none => rw [hg] at h; cases h
  | some w => exact ⟨w, rfl⟩

theorem convertElem_other {C : Env} {E m sgn : ℝ} {x : Elem ℝ}
    (h : x.type ∉ ["kquad".toList, "quad".toList, "csbend".toList, "rben".toList, "sext".toList]) : convertElem C E m sgn x = .ok x := by
  simp only [List.mem_cons, List.not_mem_nil, or_false, not_or] at h
  unfold convertElem
  rw [if_neg (not_or.2 ⟨h.1, h.2.1⟩), if_neg (not_or.2 ⟨h.2.2.1, h.2.2.2.1⟩), if_neg h.2.2.2.2]

theorem not_lacks {x : Elem ℝ} {t : Str} {ps : List Str} (hm : dget fieldMap (upper x.type) = some (t, ps))
    (hp : ∀ p ∈ ps, ∃ v, Params.getItem x.params p = some v) : ¬ Lacks fieldMap x := by
  rintro ⟨t', ps', p, h1, h2, h3⟩
  rw [hm] at h1
  cases h1
  obtain ⟨v, hv⟩ := hp p h2
  rw [hv] at h3
  cases h3

/-- An element that is ready is converted and has all parameters. -/
theorem Ready.convert {C : Env} {x : Elem ℝ} (hx : Ready C x) (E m sgn : ℝ) :
    ∃ y, convertElem C E m sgn x = .ok y ∧ ¬ Lacks fieldMap y := by
  cases hx with
  | @quad k v ht hk hl =>
    refine ⟨setParam x "db".toList (sgn * getGradient C k E m 1), ?_, ?_⟩
    · unfold convertElem
      rw [if_pos ht.symm, hk]
    · have hm : dget fieldMap (upper x.type) = some ("Quad".toList, ["l".toList, "db".toList]) := by
        rcases ht with h | h <;> rw [h] <;> rfl
      refine not_lacks (x := setParam x "db".toList (sgn * getGradient C k E m 1)) hm ?_
      intro p hp
      simp only [List.mem_cons, List.not_mem_nil, or_false] at hp
      rcases hp with rfl | rfl
      · exact ⟨v, by rw [getItem_setParam, if_neg (by decide)]; exact hl⟩
      · exact ⟨_, by rw [getItem_setParam, if_pos rfl]⟩
  | @bend l a ht hl ha h0 =>
    refine ⟨setParam x "rc".toList (l / a), ?_, ?_⟩
    · unfold convertElem
      rw [if_neg, if_pos ht, hl]
      · simp only
        rw [ha]
        simp only
        rw [if_neg h0]
      · rcases ht with h | h <;> rw [h] <;> decide
    · have hm : dget fieldMap (upper x.type) = some ("Bend".toList, ["l".toList, "rc".toList]) := by
        rcases ht with h | h <;> rw [h] <;> rfl
      refine not_lacks (x := setParam x "rc".toList (l / a)) hm ?_
      intro p hp
      simp only [List.mem_cons, List.not_mem_nil, or_false] at hp
      rcases hp with rfl | rfl
      · obtain ⟨w, hw⟩ := getFloat_some hl
        exact ⟨w, by rw [getItem_setParam, if_neg (by decide)]; exact hw⟩
      · exact ⟨_, by rw [getItem_setParam, if_pos rfl]⟩
  | @sext k v ht hk hl =>
    refine ⟨setParam x "db".toList (sgn * getGradient C k E m 2), ?_, ?_⟩
    · unfold convertElem
      rw [if_neg (by rw [ht]; decide), if_neg (by rw [ht]; decide), if_pos ht, hk]
    · have hm : dget fieldMap (upper x.type) = some ("Sext".toList, ["l".toList, "db".toList]) := by
        rw [ht]; rfl
      refine not_lacks (x := setParam x "db".toList (sgn * getGradient C k E m 2)) hm ?_
      intro p hp
      simp only [List.mem_cons, List.not_mem_nil, or_false] at hp
      rcases hp with rfl | rfl
      · exact ⟨v, by rw [getItem_setParam, if_neg (by decide)]; exact hl⟩
      · exact ⟨_, by rw [getItem_setParam, if_pos rfl]⟩
  | @drift v ht hl =>
    have key : ∀ t ∈ ["drif".toList, "csrdrift".toList, "edrift".toList, "lscdrift".toList],
        t ∉ ["kquad".toList, "quad".toList, "csbend".toList, "rben".toList, "sext".toList] ∧
        dget fieldMap (upper t) = some ("Drft".toList, ["l".toList]) := by decide +kernel
    obtain ⟨h1, h2⟩ := key _ ht
    refine ⟨x, convertElem_other h1, not_lacks h2 ?_⟩
    intro p hp
    rw [List.mem_singleton] at hp
    exact ⟨v, hp ▸ hl⟩
  | other hm =>
    refine ⟨x, convertElem_other ?_, ?_⟩
    · intro ht
      have key : ∀ t ∈ ["kquad".toList, "quad".toList, "csbend".toList, "rben".toList, "sext".toList],
        (dget fieldMap (upper t)).isSome := by decide +kernel
      have := key _ ht
      rw [hm] at this
      cases this
    · rintro ⟨t, ps, p, h1, _⟩
      rw [hm] at h1; cases h1

theorem convertAll_ok {C : Env} {E m sgn : ℝ} (es : List Nat) (h : Heap ℝ) (hx : ∀ e ∈ es, ∃ y, convertElem C E m sgn (h.elem e) = .ok y) :
    ∃ h', convertAll C E m sgn es h = .ok h' := by
  induction es generalizing h with
  | nil => exact ⟨h, rfl⟩
  | cons i is ih =>
    obtain ⟨y, hy⟩ := hx i (by simp)
    unfold convertAll
    rw [hy]
    refine ih _ fun e he => ?_
    change ∃ z, convertElem C E m sgn (if e = i then y else h.elem e) = .ok z
    split_ifs with hei
    · exact ⟨y, convertElem_again hy⟩
    · exact hx e (by simp [he])

/-- C73 for lattices of the other types: the conversion succeeds if every element has the
parameters that its type needs. -/
theorem supported_partial (C : Env) (F : Fmt ℝ) (p : ℝ) (name : Str) (h : Heap ℝ) (es : List Nat) (hx : ∀ e ∈ es, Ready C (h.elem e)) :
    ∃ text, convertWrite C F p name h es = .ok text := by
  obtain ⟨h', hc⟩ := convertAll_ok (C := C) (E := p) (m := C.mass) (sgn := 1 - 2 * 1) es h fun e he => by
    obtain ⟨y, hy, _⟩ := (hx e he).convert p C.mass (1 - 2 * 1)
    exact ⟨y, hy⟩
  unfold convertWrite
  rw [hc]
  simp only
  cases hw : (writeFile F fieldMap name (es.map h'.elem) []).2 with
  | ok t => exact ⟨t, rfl⟩
  | error err =>
    exfalso
    obtain ⟨_, x, h1, h2, _⟩ := warp_error.1 hw
    obtain ⟨e, he, rfl⟩ := List.mem_map.1 (List.mem_of_find?_eq_some h2)
    obtain ⟨y, hy, h3⟩ := (hx e he).convert p C.mass (1 - 2 * 1)
    have := (convertAll_elem es h h' hc).1 e he
    rw [hy] at this
    injection this with this
    exact h3 (this ▸ h1)

/-- A bend that is ready, and one that is not. -/
example (C : Env) : Ready C ⟨"b".toList, "csbend".toList, [("l".toList, .num 2), ("angle".toList, .num 1)], 0⟩ :=
  .bend (l := 2) (a := 1) (.inl rfl) rfl rfl (by norm_num)

example : ("sben".toList, "rc".toList) ∈ forgotten ∧ Params.getItem (R := ℝ) [("l".toList, .num 2), ("angle".toList, .num 1)] "rc".toList = none := by
  refine ⟨by simp [forgotten], ?_⟩
  unfold Params.getItem
  rw [dget_none_iff]
  intro p hp
  simp only [List.mem_cons, List.not_mem_nil, or_false] at hp
  rcases hp with rfl | rfl
  · exact show "l".toList ≠ lower "rc".toList by decide
  · exact show "angle".toList ≠ lower "rc".toList by decide

/-- A beamline with one quadrupole. -/
def exQuad : Json ℝ where
  lines := [(1, ⟨"LINE".toList, [10]⟩)]
  elems := [(10, ⟨"q1".toList, "QUAD".toList, [("l".toList, .num 2), ("k1".toList, .num 3)]⟩)]
  cache := some []

/-- It is converted, so that the hypotheses of `elegantToWarp_ok` and, for momenta above the mass, of `central_momentum_fails` hold. -/
theorem exQuad_ok (C : Env) (F : Fmt ℝ) (p : ℝ) : ∃ text, elegantToWarp C F exQuad (some p) 2 "line".toList = .ok text := by
  obtain ⟨h, h1, h2, h3⟩ : ∃ h, parseJson exQuad 2 (upper "line".toList) = .ok h ∧ h.elementsOf 2 0 = some [0] ∧
      h.elem 0 = ⟨"q1".toList, "quad".toList, [("l".toList, .num 2), ("k1".toList, .num 3)], 0⟩ := ⟨_, rfl, rfl, rfl⟩
  obtain ⟨text, ht⟩ := supported_partial C F (p * 1000000) (upper "line".toList) h [0] (by
    intro e he
    rw [List.mem_singleton.mp he, h3]
    exact .quad (k := 3) (v := .num 2) (.inl rfl) rfl rfl)
  refine ⟨text, ?_⟩
  unfold elegantToWarp
  simp only [h1, h2]
  exact ht

example (F : Fmt ℝ) : ∃ text, elegantToWarp ⟨1, 3, 511000, fun _ => none⟩ F exQuad (some 5) 2 "line".toList = .ok text ∧
    ∃ (h : Heap ℝ) (es : List Nat) (h' : Heap ℝ), parseJson exQuad 2 (upper "line".toList) = .ok h ∧ h.elementsOf 2 0 = some es ∧
      (∃ known, writeFile F fieldMap (upper "line".toList) (es.map h'.elem) [] = (known, .ok text)) ∧
      ∀ e ∈ es, ((h.elem e).type = "quad".toList ∨ (h.elem e).type = "kquad".toList) →
        ∃ k g, getFloat ⟨1, 3, 511000, fun _ => none⟩ (h.elem e) "k1".toList = .ok k ∧
          Params.getItem (h'.elem e).params "db".toList = some (.num g) ∧
          g = -(k * rigidity ⟨1, 3, 511000, fun _ => none⟩ (√((5 * 1000000) ^ 2 - 511000 ^ 2))) ∧
          (k ≠ 0 → |g| < |k| * rigidity ⟨1, 3, 511000, fun _ => none⟩ (5 * 1000000)) := by
  obtain ⟨text, h⟩ := exQuad_ok ⟨1, 3, 511000, fun _ => none⟩ F 5
  exact ⟨text, h, central_momentum_fails (C := ⟨1, 3, 511000, fun _ => none⟩) (by norm_num) (by norm_num) (by norm_num) (by norm_num) h⟩

example (k : ℝ) : getGradient ⟨1, 3, 3, fun _ => none⟩ k 5 3 1 = k * rigidity ⟨1, 3, 3, fun _ => none⟩ 4 :=
  gradient_partial ⟨1, 3, 3, fun _ => none⟩ (by norm_num) (by norm_num) (by norm_num) (by norm_num) ⟨by norm_num, by norm_num⟩ k

end Verif.Warp
