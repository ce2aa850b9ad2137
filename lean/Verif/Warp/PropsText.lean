import Verif.Warp.PropsConvert

/-!
# Property C136: the text written by the conversion

Every element of the beamline is defined by the Warp element of its type, with its own length and the
gradient or radius computed from its strength or angle: `convert_text` gives the text exactly. The
conversion succeeds exactly if the strengths, lengths and angles can be read as numbers, no bend has
the angle zero, and the first element of each name has the parameters of its Warp type
(`convert_ok_iff`). Errors of the numbers are `getFloat_error`.
-/

namespace Verif.Warp

open Verif.Lattice Verif.Import

/-- Types of elegant that are drifts in Warp. -/
def driftTypes : List Str := ["DRIF".toList, "CSRDRIFT".toList, "EDRIFT".toList, "LSCDRIFT".toList]

/-- Types of elegant that are bends in Warp. -/
def bendTypes : List Str :=
  ["CSBEND".toList, "SBEN".toList, "CSRCSBEND".toList, "KSBEND".toList, "NIBEND".toList, "RBEN".toList, "TUBEND".toList]

/-- Types of elegant that are quadrupoles in Warp. -/
def quadTypes : List Str := ["QUAD".toList, "KQUAD".toList]

/-- Types of elegant that are sextupoles in Warp. -/
def sextTypes : List Str := ["SEXT".toList, "KSEXT".toList]

/-- The Warp element and its parameters for a type in upper case. -/
def warpType (t : Str) : Option (Str × List Str) :=
  if t ∈ driftTypes then some ("Drft".toList, ["l".toList])
  else if t ∈ bendTypes then some ("Bend".toList, ["l".toList, "rc".toList])
  else if t ∈ quadTypes then some ("Quad".toList, ["l".toList, "db".toList])
  else if t ∈ sextTypes then some ("Sext".toList, ["l".toList, "db".toList])
  else none

/-- The mapping of Sirepo has exactly these types. -/
theorem fieldMap_eq (t : Str) : dget fieldMap t = warpType t := by
  by_cases h : t ∈ driftTypes ++ bendTypes ++ quadTypes ++ sextTypes
  · have key : ∀ t ∈ driftTypes ++ bendTypes ++ quadTypes ++ sextTypes, dget fieldMap t = warpType t := by decide +kernel
    exact key t h
  · have h1 : dget fieldMap t = none := by
      rw [dget_none_iff]
      intro p hp he
      have key : ∀ p ∈ fieldMap, p.1 ∈ driftTypes ++ bendTypes ++ quadTypes ++ sextTypes := by decide +kernel
      exact h (he ▸ key p hp)
    simp only [List.mem_append, not_or] at h
    rw [h1]
    unfold warpType
    rw [if_neg h.1.1.1, if_neg h.1.1.2, if_neg h.1.2, if_neg h.2]

/-- The number that a value stands for. -/
inductive Number (C : Env) : PVal ℝ → ℝ → Prop
  | num (v : ℝ) : Number C (.num v) v
  | text {s v} : C.float s = some v → Number C (.str s) v

/-- The parameter `key` of the element is the number `v`. -/
def HasNumber (C : Env) (x : Elem ℝ) (key : Str) (v : ℝ) : Prop := ∃ w, Params.getItem x.params key = some w ∧ Number C w v

theorem getFloat_iff (C : Env) (x : Elem ℝ) (key : Str) (v : ℝ) : getFloat C x key = .ok v ↔ HasNumber C x key v := by
  unfold getFloat HasNumber
  cases hg : Params.getItem x.params key with
  | none => simp
  | some w =>
    simp only [Option.some.injEq, exists_eq_left']
    cases w with
    | num u =>
      simp only [Except.ok.injEq]
      exact ⟨fun h => h ▸ .num u, fun h => by cases h; rfl⟩
    | str s =>
      simp only
      cases hs : C.float s with
      | none => exact ⟨fun h => (by cases h), fun h => by cases h with | text h => rw [hs] at h; cases h⟩
      | some u =>
        simp only [Except.ok.injEq]
        exact ⟨fun h => .text (h ▸ hs), fun h => by cases h with | text h => rw [hs] at h; cases h; rfl⟩

/-- A parameter that is not there raises KeyError, and a text that is not a number ValueError. -/
theorem getFloat_error (C : Env) (x : Elem ℝ) (key : Str) (e : PyErr) :
    getFloat C x key = .error e ↔ (e = .keyError ∧ Params.getItem x.params key = none) ∨
      (e = .valueError ∧ ∃ s, Params.getItem x.params key = some (.str s) ∧ C.float s = none) := by
  unfold getFloat
  cases hg : Params.getItem x.params key with
  | none => simp [eq_comm]
  | some w =>
    cases w with
    | num u => simp
    | str s =>
      simp only
      cases hs : C.float s with
      | none => simp [hs, eq_comm]
      | some u => simp [hs]

/-- What the conversion needs of an element. -/
structure Convertible (C : Env) (x : Elem ℝ) : Prop where
  quad : x.type = "quad".toList ∨ x.type = "kquad".toList → ∃ k, HasNumber C x "k1".toList k
  bend : x.type = "csbend".toList ∨ x.type = "rben".toList → ∃ l a, HasNumber C x "l".toList l ∧ HasNumber C x "angle".toList a ∧ a ≠ 0
  sext : x.type = "sext".toList → ∃ k, HasNumber C x "k2".toList k

theorem convertElem_iff (C : Env) (E m sgn : ℝ) (x : Elem ℝ) : (∃ y, convertElem C E m sgn x = .ok y) ↔ Convertible C x := by
  have hqb : x.type = "kquad".toList ∨ x.type = "quad".toList → ¬ (x.type = "csbend".toList ∨ x.type = "rben".toList) := by
    rintro (h | h) <;> rw [h] <;> decide
  have hqs : x.type = "kquad".toList ∨ x.type = "quad".toList → x.type ≠ "sext".toList := by
    rintro (h | h) <;> rw [h] <;> decide
  have hbs : x.type = "csbend".toList ∨ x.type = "rben".toList → x.type ≠ "sext".toList := by
    rintro (h | h) <;> rw [h] <;> decide
  unfold convertElem
  by_cases hq : x.type = "kquad".toList ∨ x.type = "quad".toList
  · rw [if_pos hq]
    cases hk : getFloat C x "k1".toList with
    | error e =>
      refine ⟨fun ⟨y, h⟩ => (by cases h), fun h => ?_⟩
      obtain ⟨k, h⟩ := h.quad hq.symm
      rw [(getFloat_iff _ _ _ _).2 h] at hk; cases hk
    | ok k =>
      exact ⟨fun _ => ⟨fun _ => ⟨k, (getFloat_iff _ _ _ _).1 hk⟩, fun h => absurd h (hqb hq), fun h => absurd h (hqs hq)⟩,
        fun _ => ⟨_, rfl⟩⟩
  · rw [if_neg hq]
    have hq' : ¬ (x.type = "quad".toList ∨ x.type = "kquad".toList) := fun h => hq h.symm
    by_cases hb : x.type = "csbend".toList ∨ x.type = "rben".toList
    · rw [if_pos hb]
      cases hl : getFloat C x "l".toList with
      | error e =>
        refine ⟨fun ⟨y, h⟩ => (by cases h), fun h => ?_⟩
        obtain ⟨l, a, h, _⟩ := h.bend hb
        rw [(getFloat_iff _ _ _ _).2 h] at hl; cases hl
      | ok l =>
        simp only
        cases ha : getFloat C x "angle".toList with
        | error e =>
          refine ⟨fun ⟨y, h⟩ => (by cases h), fun h => ?_⟩
          obtain ⟨l, a, _, h, _⟩ := h.bend hb
          rw [(getFloat_iff _ _ _ _).2 h] at ha; cases ha
        | ok a =>
          simp only
          by_cases h0 : a = 0
          · rw [if_pos h0]
            refine ⟨fun ⟨y, h⟩ => (by cases h), fun h => ?_⟩
            obtain ⟨l, b, _, h, hb0⟩ := h.bend hb
            rw [(getFloat_iff _ _ _ _).2 h] at ha
            cases ha
            exact absurd h0 hb0
          · rw [if_neg h0]
            exact ⟨fun _ => ⟨fun h => absurd h hq', fun _ => ⟨l, a, (getFloat_iff _ _ _ _).1 hl, (getFloat_iff _ _ _ _).1 ha, h0⟩,
              fun h => absurd h (hbs hb)⟩, fun _ => ⟨_, rfl⟩⟩
    · rw [if_neg hb]
      by_cases hs : x.type = "sext".toList
      · rw [if_pos hs]
        cases hk : getFloat C x "k2".toList with
        | error e =>
          refine ⟨fun ⟨y, h⟩ => (by cases h), fun h => ?_⟩
          obtain ⟨k, h⟩ := h.sext hs
          rw [(getFloat_iff _ _ _ _).2 h] at hk; cases hk
        | ok k =>
          exact ⟨fun _ => ⟨fun h => absurd h hq', fun h => absurd h hb, fun _ => ⟨k, (getFloat_iff _ _ _ _).1 hk⟩⟩, fun _ => ⟨_, rfl⟩⟩
      · rw [if_neg hs]
        exact ⟨fun _ => ⟨fun h => absurd h hq', fun h => absurd h hb, fun h => absurd h hs⟩, fun _ => ⟨_, rfl⟩⟩

/-- Rigidity of the beam that the conversion uses: `E` is taken as the total energy. -/
noncomputable def beamRigidity (C : Env) (E : ℝ) : ℝ := rigidity C (√(E ^ 2 - C.mass ^ 2))

/-- The types that are converted. -/
def converted : List Str := ["kquad".toList, "quad".toList, "csbend".toList, "rben".toList, "sext".toList]

/-- The definition of the element `x` of the lattice. -/
inductive WarpText (C : Env) (F : Fmt ℝ) (E : ℝ) (x : Elem ℝ) : Str → Prop
  | quad {k v} : x.type = "quad".toList ∨ x.type = "kquad".toList → HasNumber C x "k1".toList k →
      Params.getItem x.params "l".toList = some v →
      WarpText C F E x (upper x.name ++ " = wp.Quad( l=".toList ++ valueText F v ++ ", db=".toList ++
        F.text (-(k * beamRigidity C E)) ++ ",)\n".toList)
  | sext {k v} : x.type = "sext".toList → HasNumber C x "k2".toList k → Params.getItem x.params "l".toList = some v →
      WarpText C F E x (upper x.name ++ " = wp.Sext( l=".toList ++ valueText F v ++ ", db=".toList ++
        F.text (-(k * beamRigidity C E ^ 2)) ++ ",)\n".toList)
  | bend {v l a} : x.type = "csbend".toList ∨ x.type = "rben".toList → Params.getItem x.params "l".toList = some v →
      Number C v l → HasNumber C x "angle".toList a → a ≠ 0 →
      WarpText C F E x (upper x.name ++ " = wp.Bend( l=".toList ++ valueText F v ++ ", rc=".toList ++ F.text (l / a) ++ ",)\n".toList)
  | kept {t ps s} : x.type ∉ converted → warpType (upper x.type) = some (t, ps) → ParamText F x ps s →
      WarpText C F E x (upper x.name ++ " = wp.".toList ++ t ++ "(".toList ++ s ++ ")\n".toList)
  | drift {v} : warpType (upper x.type) = none → Params.get x.params "l".toList = some v → Kept F v →
      WarpText C F E x (upper x.name ++ " = wp.Drft( l=".toList ++ valueText F v ++ ",)\n".toList)
  | point : warpType (upper x.type) = none → (∀ v, Params.get x.params "l".toList = some v → ¬ Kept F v) →
      WarpText C F E x (upper x.name ++ " = wp.Drft( l=0.0,)\n".toList)

theorem gradient_beam (C : Env) (he : 0 < C.e) (hc : 0 < C.c) (hm : 0 < C.mass) {E : ℝ} (hE : C.mass ≤ E) (k : ℝ) (n : ℕ) :
    getGradient C k E C.mass n = k * beamRigidity C E ^ n := by
  refine gradient_exact C he hc (Real.sqrt_nonneg _) hm ⟨(lt_of_lt_of_le hm hE).le, ?_⟩ k n
  rw [Real.sq_sqrt (by nlinarith)]; ring

theorem paramText_two {F : Fmt ℝ} {x : Elem ℝ} {p q : Str} {s : Str} (h : ParamText F x [p, q] s) :
    ∃ v w, Params.getItem x.params p = some v ∧ Params.getItem x.params q = some w ∧
      s = " ".toList ++ p ++ "=".toList ++ valueText F v ++ ",".toList ++ (" ".toList ++ q ++ "=".toList ++ valueText F w ++ ",".toList) := by
  cases h with
  | @cons _ _ v s' h1 h2 =>
    cases h2 with
    | @cons _ _ w s'' h3 h4 =>
      cases h4
      exact ⟨v, w, h1, h3, by simp only [List.append_nil]⟩

/-- The definition of a converted element. -/
theorem defines_convert {C : Env} (he : 0 < C.e) (hc : 0 < C.c) (hm : 0 < C.mass) {F : Fmt ℝ} {E : ℝ} (hE : C.mass ≤ E)
    {x y : Elem ℝ} (hy : convertElem C E C.mass (-1) x = .ok y) {t : Str} (hd : Defines F fieldMap y t) : WarpText C F E x t := by
  obtain ⟨hname, htype⟩ := convertElem_name hy
  unfold convertElem at hy
  have hl0 : ∀ (key : String) (g : ℝ), lower key.toList ≠ lower "l".toList →
      Params.getItem (setParam x key.toList g).params "l".toList = Params.getItem x.params "l".toList := by
    intro key g h
    rw [getItem_setParam, if_neg (Ne.symm h)]
  by_cases hq : x.type = "kquad".toList ∨ x.type = "quad".toList
  · rw [if_pos hq] at hy
    cases hk : getFloat C x "k1".toList with
    | error e => rw [hk] at hy; cases hy
    | ok k =>
      rw [hk] at hy
      simp only [Except.ok.injEq] at hy
      have hmt : dget fieldMap (upper y.type) = some ("Quad".toList, ["l".toList, "db".toList]) := by
        rw [htype]; rcases hq with h | h <;> rw [h] <;> rfl
      cases hd with
      | drift h1 => rw [hmt] at h1; cases h1
      | point h1 => rw [hmt] at h1; cases h1
      | known h1 h2 =>
        rw [hmt] at h1
        cases h1
        obtain ⟨v, w, e1, e2, rfl⟩ := paramText_two h2
        rw [← hy] at e1 e2
        rw [hl0 "db" _ (by decide)] at e1
        rw [getItem_setParam, if_pos rfl] at e2
        cases e2
        have := WarpText.quad (F := F) (E := E) hq.symm ((getFloat_iff _ _ _ _).1 hk) e1
        rw [gradient_beam C he hc hm hE, pow_one, hname]
        simpa [valueText, List.append_assoc] using this
  · rw [if_neg hq] at hy
    by_cases hb : x.type = "csbend".toList ∨ x.type = "rben".toList
    · rw [if_pos hb] at hy
      cases hl : getFloat C x "l".toList with
      | error e => rw [hl] at hy; cases hy
      | ok l =>
        rw [hl] at hy
        simp only at hy
        cases ha : getFloat C x "angle".toList with
        | error e => rw [ha] at hy; cases hy
        | ok a =>
          rw [ha] at hy
          simp only at hy
          by_cases h0 : a = 0
          · rw [if_pos h0] at hy; cases hy
          · rw [if_neg h0] at hy
            simp only [Except.ok.injEq] at hy
            have hmt : dget fieldMap (upper y.type) = some ("Bend".toList, ["l".toList, "rc".toList]) := by
              rw [htype]; rcases hb with h | h <;> rw [h] <;> rfl
            cases hd with
            | drift h1 => rw [hmt] at h1; cases h1
            | point h1 => rw [hmt] at h1; cases h1
            | known h1 h2 =>
              rw [hmt] at h1
              cases h1
              obtain ⟨v, w, e1, e2, rfl⟩ := paramText_two h2
              rw [← hy] at e1 e2
              rw [hl0 "rc" _ (by decide)] at e1
              rw [getItem_setParam, if_pos rfl] at e2
              cases e2
              obtain ⟨v', hv', hn⟩ := (getFloat_iff _ _ _ _).1 hl
              rw [e1] at hv'
              cases hv'
              have := WarpText.bend (F := F) (E := E) hb e1 hn ((getFloat_iff _ _ _ _).1 ha) h0
              rw [hname]
              simpa [valueText, List.append_assoc] using this
    · rw [if_neg hb] at hy
      by_cases hs : x.type = "sext".toList
      · rw [if_pos hs] at hy
        cases hk : getFloat C x "k2".toList with
        | error e => rw [hk] at hy; cases hy
        | ok k =>
          rw [hk] at hy
          simp only [Except.ok.injEq] at hy
          have hmt : dget fieldMap (upper y.type) = some ("Sext".toList, ["l".toList, "db".toList]) := by
            rw [htype, hs]; rfl
          cases hd with
          | drift h1 => rw [hmt] at h1; cases h1
          | point h1 => rw [hmt] at h1; cases h1
          | known h1 h2 =>
            rw [hmt] at h1
            cases h1
            obtain ⟨v, w, e1, e2, rfl⟩ := paramText_two h2
            rw [← hy] at e1 e2
            rw [hl0 "db" _ (by decide)] at e1
            rw [getItem_setParam, if_pos rfl] at e2
            cases e2
            have := WarpText.sext (F := F) (E := E) hs ((getFloat_iff _ _ _ _).1 hk) e1
            rw [gradient_beam C he hc hm hE, hname]
            simpa [valueText, List.append_assoc] using this
      · rw [if_neg hs] at hy
        cases hy
        have hnc : x.type ∉ converted := by
          simp only [converted, List.mem_cons, List.not_mem_nil, or_false, not_or]
          exact ⟨fun h => hq (.inl h), fun h => hq (.inr h), fun h => hb (.inl h), fun h => hb (.inr h), hs⟩
        cases hd with
        | known h1 h2 => exact .kept hnc (by rw [← fieldMap_eq]; exact h1) h2
        | drift h1 h2 h3 => exact .drift (by rw [← fieldMap_eq]; exact h1) h2 h3
        | point h1 h2 => exact .point (by rw [← fieldMap_eq]; exact h1) h2

/-- **C136.** The text of the conversion: every element is convertible, the first element of each name is
defined as `WarpText` says, and the line has all elements in order. -/
theorem convert_text {C : Env} (he : 0 < C.e) (hc : 0 < C.c) (hm : 0 < C.mass) {F : Fmt ℝ} {p : ℝ} (hp : C.mass ≤ p) {name : Str}
    {h : Heap ℝ} {es : List Nat} (hne : es ≠ []) {text : Str} (hr : convertWrite C F p name h es = .ok text) :
    (∀ e ∈ es, Convertible C (h.elem e)) ∧ ∃ ds ts, Firsts (es.map h.elem) [] ds ∧ List.Forall₂ (WarpText C F p) ds ts ∧
      text = "import warp as wp\n".toList ++ ts.flatten ++
        (name ++ " = ".toList ++ joinPlus (es.map fun e => upper (h.elem e).name) ++ " ".toList) := by
  unfold convertWrite at hr
  rw [show (1 - 2 * 1 : ℝ) = -1 by norm_num] at hr
  cases hcv : convertAll C p C.mass (-1) es h with
  | error e => rw [hcv] at hr; cases hr
  | ok h' =>
    rw [hcv] at hr
    simp only at hr
    obtain ⟨hel, _⟩ := convertAll_elem es h h' hcv
    refine ⟨fun e hmem => (convertElem_iff _ _ _ _ _).1 ⟨_, hel e hmem⟩, ?_⟩
    let f : Elem ℝ → Elem ℝ := fun x => match convertElem C p C.mass (-1) x with
      | .ok y => y
      | .error _ => x
    have hf : ∀ e ∈ es, f (h.elem e) = h'.elem e := by
      intro e hmem
      simp only [f, hel e hmem]
    have hmap : es.map h'.elem = (es.map h.elem).map f := by
      rw [List.map_map]
      exact List.map_congr_left fun e hmem => (hf e hmem).symm
    rw [hmap] at hr
    have hname : ∀ x ∈ es.map h.elem, (f x).name = x.name := by
      intro x hx
      obtain ⟨e, hmem, rfl⟩ := List.mem_map.1 hx
      rw [hf e hmem]
      exact (convertElem_name (hel e hmem)).1
    obtain ⟨ds, ts, g, hd, hk, ht⟩ := writeFile_map f hname (by simpa using hne) (Prod.ext rfl hr)
    refine ⟨ds, ts, g, ?_, ?_⟩
    · have hmem : ∀ d ∈ ds, d ∈ es.map h.elem := fun d hd => g.sub.subset hd
      clear g ht hk
      induction hd with
      | nil => exact .nil
      | @cons d t ds ts h1 h2 ih =>
        refine .cons ?_ (ih fun d hd => hmem d (by simp [hd]))
        obtain ⟨e, he', rfl⟩ := List.mem_map.1 (hmem d (by simp))
        rw [hf e he'] at h1
        exact defines_convert he hc hm hp (hel e he') h1
    · rw [ht, List.map_map]
      rfl

/-- The parameters that the element of the lattice must have itself. -/
def Complete (x : Elem ℝ) : Prop :=
  (x.type ∈ converted → ∃ v, Params.getItem x.params "l".toList = some v) ∧
  (x.type ∉ converted → ∀ t ps, warpType (upper x.type) = some (t, ps) → ∀ p ∈ ps, ∃ v, Params.getItem x.params p = some v)

theorem lacks_convert {C : Env} {E m sgn : ℝ} {x y : Elem ℝ} (hy : convertElem C E m sgn x = .ok y) : Lacks fieldMap y ↔ ¬ Complete x := by
  obtain ⟨hname, htype⟩ := convertElem_name hy
  have hl0 : ∀ (key : String) (g : ℝ), lower key.toList ≠ lower "l".toList →
      Params.getItem (setParam x key.toList g).params "l".toList = Params.getItem x.params "l".toList := by
    intro key g h
    rw [getItem_setParam, if_neg (Ne.symm h)]
  -- a converted element has the second parameter
  have two : ∀ (t : Str) (key : String) (g : ℝ), x.type ∈ converted → dget fieldMap (upper x.type) = some (t, ["l".toList, key.toList]) →
      lower key.toList ≠ lower "l".toList → y = setParam x key.toList g → (Lacks fieldMap y ↔ ¬ Complete x) := by
    intro t key g hcv hmt hkey hyx
    have hC : Complete x ↔ ∃ v, Params.getItem x.params "l".toList = some v :=
      ⟨fun h => h.1 hcv, fun h => ⟨fun _ => h, fun hn => absurd hcv hn⟩⟩
    rw [hC]
    constructor
    · rintro ⟨t', ps, p, h1, h2, h3⟩
      rw [htype, hmt] at h1
      cases h1
      simp only [List.mem_cons, List.not_mem_nil, or_false] at h2
      rw [hyx] at h3
      rcases h2 with rfl | rfl
      · rw [hl0 key g hkey] at h3
        rintro ⟨v, hv⟩
        rw [hv] at h3; cases h3
      · rw [getItem_setParam, if_pos rfl] at h3; cases h3
    · intro hn
      refine ⟨t, ["l".toList, key.toList], "l".toList, by rw [htype]; exact hmt, by simp, ?_⟩
      rw [hyx, hl0 key g hkey]
      cases hv : Params.getItem x.params "l".toList with
      | none => rfl
      | some v => exact absurd ⟨v, hv⟩ hn
  unfold convertElem at hy
  by_cases hq : x.type = "kquad".toList ∨ x.type = "quad".toList
  · rw [if_pos hq] at hy
    split at hy
    · cases hy
      refine two "Quad".toList "db" _ ?_ ?_ (by decide) rfl
      · rcases hq with h | h <;> rw [h] <;> decide
      · rcases hq with h | h <;> rw [h] <;> rfl
    · cases hy
  · rw [if_neg hq] at hy
    by_cases hb : x.type = "csbend".toList ∨ x.type = "rben".toList
    · rw [if_pos hb] at hy
      split at hy
      · cases hy
      · split at hy
        · cases hy
        · split_ifs at hy
          cases hy
          refine two "Bend".toList "rc" _ ?_ ?_ (by decide) rfl
          · rcases hb with h | h <;> rw [h] <;> decide
          · rcases hb with h | h <;> rw [h] <;> rfl
    · rw [if_neg hb] at hy
      by_cases hs : x.type = "sext".toList
      · rw [if_pos hs] at hy
        split at hy
        · cases hy
          refine two "Sext".toList "db" _ ?_ ?_ (by decide) rfl
          · rw [hs]; decide
          · rw [hs]; rfl
        · cases hy
      · rw [if_neg hs] at hy
        cases hy
        have hnc : x.type ∉ converted := by
          simp only [converted, List.mem_cons, List.not_mem_nil, or_false, not_or]
          exact ⟨fun h => hq (.inl h), fun h => hq (.inr h), fun h => hb (.inl h), fun h => hb (.inr h), hs⟩
        constructor
        · rintro ⟨t, ps, p, h1, h2, h3⟩ hcomp
          obtain ⟨v, hv⟩ := hcomp.2 hnc t ps (by rw [← fieldMap_eq]; exact h1) p h2
          rw [hv] at h3; cases h3
        · intro hn
          by_contra hL
          refine hn ⟨fun h => absurd h hnc, fun _ t ps h1 p h2 => ?_⟩
          cases hv : Params.getItem x.params p with
          | some v => exact ⟨v, rfl⟩
          | none => exact absurd ⟨t, ps, p, by rw [fieldMap_eq]; exact h1, h2, hv⟩ hL

theorem convertAll_iff {C : Env} {E m sgn : ℝ} (es : List Nat) (h : Heap ℝ) :
    (∃ h', convertAll C E m sgn es h = .ok h') ↔ ∀ e ∈ es, Convertible C (h.elem e) := by
  constructor
  · rintro ⟨h', hr⟩ e he
    exact (convertElem_iff C E m sgn _).1 ⟨_, (convertAll_elem es h h' hr).1 e he⟩
  · intro hx
    exact convertAll_ok es h fun e he => (convertElem_iff C E m sgn _).2 (hx e he)

theorem find_names (g g' : Nat → Elem ℝ) (es : List Nat) (n : Str) (hn : ∀ e ∈ es, (g e).name = (g' e).name) {y : Elem ℝ}
    (hy : (es.map g).find? (fun y => upper y.name = n) = some y) :
    ∃ e ∈ es, y = g e ∧ (es.map g').find? (fun y => upper y.name = n) = some (g' e) := by
  induction es with
  | nil => cases hy
  | cons i is ih =>
    rw [List.map_cons] at hy
    by_cases hi : upper (g i).name = n
    · rw [List.find?_cons_of_pos (by simpa using hi)] at hy
      cases hy
      refine ⟨i, by simp, rfl, ?_⟩
      rw [List.map_cons, List.find?_cons_of_pos]
      simpa [← hn i (by simp)] using hi
    · rw [List.find?_cons_of_neg (by simpa using hi)] at hy
      obtain ⟨e, he, h1, h2⟩ := ih (fun e he => hn e (by simp [he])) hy
      refine ⟨e, by simp [he], h1, ?_⟩
      rw [List.map_cons, List.find?_cons_of_neg]
      · exact h2
      · simpa [← hn i (by simp)] using hi

/-- The conversion succeeds exactly if all elements are convertible and the first element of each
name has the parameters of its Warp type. -/
theorem convert_ok_iff (C : Env) (F : Fmt ℝ) (p : ℝ) (name : Str) (h : Heap ℝ) (es : List Nat) :
    (∃ text, convertWrite C F p name h es = .ok text) ↔ (∀ e ∈ es, Convertible C (h.elem e)) ∧
      ∀ x, (es.map h.elem).find? (fun y => upper y.name = upper x.name) = some x → Complete x := by
  constructor
  · rintro ⟨text, hr⟩
    unfold convertWrite at hr
    cases hcv : convertAll C p C.mass (1 - 2 * 1) es h with
    | error e => rw [hcv] at hr; cases hr
    | ok h' =>
      rw [hcv] at hr
      simp only at hr
      refine ⟨(convertAll_iff es h).1 ⟨h', hcv⟩, ?_⟩
      intro x hx
      by_contra hn
      obtain ⟨hel, _⟩ := convertAll_elem es h h' hcv
      have hnm : ∀ e ∈ es, (h.elem e).name = (h'.elem e).name := fun e he => ((convertElem_name (hel e he)).1).symm
      obtain ⟨e, he, rfl, hfd⟩ := find_names h.elem h'.elem es _ hnm hx
      have hL := (lacks_convert (hel e he)).2 hn
      have herr := (warp_error (F := F) (m := fieldMap) (name := name) (xs := es.map h'.elem) (known := []) (e := .keyError)).2
        ⟨rfl, h'.elem e, hL, by rw [← hnm e he]; exact hfd, by simp⟩
      rw [hr] at herr
      cases herr
  · rintro ⟨hx, hcomp⟩
    obtain ⟨h', hcv⟩ := (convertAll_iff (E := p) (m := C.mass) (sgn := 1 - 2 * 1) es h).2 hx
    obtain ⟨hel, _⟩ := convertAll_elem es h h' hcv
    unfold convertWrite
    rw [hcv]
    simp only
    cases hw : (writeFile F fieldMap name (es.map h'.elem) []).2 with
    | ok t => exact ⟨t, rfl⟩
    | error err =>
      exfalso
      obtain ⟨_, y, h1, h2, _⟩ := warp_error.1 hw
      obtain ⟨e, he, rfl, h3⟩ := find_names h'.elem h.elem es _ (fun e he => (convertElem_name (hel e he)).1) h2
      refine (lacks_convert (hel e he)).1 h1 (hcomp _ ?_)
      rw [← (convertElem_name (hel e he)).1]
      exact h3

/-- The environment of the examples: mass 3, and the only text that is a number is 2. -/
noncomputable def exEnv : Env := ⟨1, 3, 3, fun s => if s = "2".toList then some 2 else none⟩

/-- A quadrupole whose strength is a text. -/
def exQuadText : Elem ℝ := ⟨"q1".toList, "quad".toList, [("l".toList, .num 2), ("k1".toList, .str "2".toList)], 0⟩

theorem exQuadText_ok (F : Fmt ℝ) (line : Nat → Line) :
    ∃ text, convertWrite exEnv F 5 "LINE".toList ⟨fun _ => exQuadText, 1, line, 1⟩ [0, 0] = .ok text := by
  refine (convert_ok_iff _ _ _ _ _ _).2 ⟨?_, ?_⟩
  · intro e _
    refine ⟨fun _ => ⟨2, .str "2".toList, rfl, .text (show (if "2".toList = "2".toList then some (2 : ℝ) else none) = some 2 from if_pos rfl)⟩, ?_, ?_⟩
    · rintro (h | h)
      · exact absurd h (by show "quad".toList ≠ "csbend".toList; decide)
      · exact absurd h (by show "quad".toList ≠ "rben".toList; decide)
    · intro h
      exact absurd h (by show "quad".toList ≠ "sext".toList; decide)
  · intro x hx
    obtain ⟨e, _, rfl⟩ := List.mem_map.1 (List.mem_of_find?_eq_some hx)
    exact ⟨fun _ => ⟨.num 2, rfl⟩, fun h => absurd (show "quad".toList ∈ converted by decide) h⟩

example (F : Fmt ℝ) (line : Nat → Line) : ∃ text,
    convertWrite exEnv F 5 "LINE".toList ⟨fun _ => exQuadText, 1, line, 1⟩ [0, 0] = .ok text ∧
    ∃ ds ts, Firsts [exQuadText, exQuadText] [] ds ∧ List.Forall₂ (WarpText exEnv F 5) ds ts ∧
      text = "import warp as wp\n".toList ++ ts.flatten ++ ("LINE".toList ++ " = ".toList ++ "Q1 + Q1".toList ++ " ".toList) := by
  obtain ⟨text, h⟩ := exQuadText_ok F line
  refine ⟨text, h, ?_⟩
  exact (convert_text (C := exEnv) (by norm_num [exEnv]) (by norm_num [exEnv]) (by norm_num [exEnv]) (by norm_num [exEnv]) (by simp) h).2

/-- A strength that is not a number raises ValueError, a missing one KeyError. -/
example : getFloat exEnv ⟨"q1".toList, "quad".toList, [("k1".toList, .str "x".toList)], 0⟩ "k1".toList = .error .valueError :=
  (getFloat_error _ _ _ _).2 (.inr ⟨rfl, "x".toList, rfl, show (if "x".toList = "2".toList then some (2 : ℝ) else none) = none from if_neg (by decide)⟩)

example : getFloat exEnv ⟨"q1".toList, "quad".toList, [], 0⟩ "k1".toList = .error .keyError :=
  (getFloat_error _ _ _ _).2 (.inl ⟨rfl, rfl⟩)

end Verif.Warp
